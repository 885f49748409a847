import Verif.Props.QueryTotal
import Verif.Props.QueryShape
/-
C83: what is found for a scalar, a tuple or a collection is what is found for a relation.
-/
namespace Mentat
namespace CC

/-- The values of a relation of one column. -/
def QResult.column : QResult → QResult
  | .rel _ vs => .coll vs
  | r => r

/-- The row of a relation of at most one row. -/
def QResult.onlyRow : QResult → QResult
  | .rel _ [] => .tuple none
  | .rel _ vs => .tuple (some vs)
  | r => r

/-- The value of a tuple of one. -/
def QResult.onlyValue : QResult → QResult
  | .tuple none => .scalar none
  | .tuple (some vs) => .scalar vs.head?
  | r => r

theorem fromParsed_ok {q q' : FindQuery} (h : fromParsed q = .ok q') : q' = q := by
  unfold fromParsed at h
  split at h
  · cases h
  · split at h
    · cases h
    · split at h
      · split at h
        · exact (Res.ok.inj h).symm
        · cases h
      · exact (Res.ok.inj h).symm

theorem fromParsed_find {q : FindQuery} (f : FindSpec) {l : Limit} (hl : q.limit = l ∨ (∀ x, q.limit ≠ .var x) ∧ ∀ x, l ≠ .var x) :
    fromParsed { q with find := f, limit := l } = (fromParsed q).bind fun _ => .ok { q with find := f, limit := l } := by
  unfold fromParsed
  simp only
  split
  · rfl
  · split
    · rfl
    · rcases hl with rfl | ⟨h1, h2⟩
      · cases q.limit with
        | var x => by_cases h : x ∈ q.inVars <;> simp [h, Res.bind]
        | _ => rfl
      · cases h : q.limit with
        | var x => exact absurd h (h1 x)
        | _ => cases h' : l with
          | var x => exact absurd h' (h2 x)
          | _ => rfl

/-- The find spec and a limit that is not an input matter to the algebrizer only by the elements and by
what the limit is in the end. -/
theorem algebrizeQuery_find {k : Known} {q : FindQuery} {inputs : Inputs} {f g : FindSpec} {l m : Limit}
    (he : f.elements = g.elements) (hl : ∀ x, l ≠ .var x) (hm : ∀ x, m ≠ .var x)
    (hu : (if f.isUnitLimited then .fixed 1 else l) = if g.isUnitLimited then .fixed 1 else m) :
    algebrizeQuery k { q with find := f, limit := l } inputs =
      (algebrizeQuery k { q with find := g, limit := m } inputs).bind fun a => .ok { a with find := f } := by
  unfold algebrizeQuery
  rw [fromParsed_find (q := { q with limit := l }) f (l := l) (.inl rfl)]
  have e : fromParsed { q with find := g, limit := m } = (fromParsed { q with limit := l }).bind fun _ =>
      .ok { q with find := g, limit := m } := fromParsed_find (q := { q with limit := l }) g (l := m) (.inr ⟨hl, hm⟩)
  rw [e]
  cases fromParsed { q with limit := l } with
  | err e => rfl
  | panic => rfl
  | ok q' =>
    simp only [Res.bind, algebrize]
    cases withInputs q.inVars inputs 0 with
    | err e => rfl
    | panic => rfl
    | ok cc0 =>
      simp only [he]
      rw [hu]
      cases applyClauses k (cc0.deriveTypes g.elements) q.clauses with
      | err e => rfl
      | panic => rfl
      | ok cc3 =>
        simp only
        cases cc3.finish with
        | err e => rfl
        | panic => rfl
        | ok cc =>
          cases q.order with
          | none =>
            simp only
            cases cc.simplifyLimit (if g.isUnitLimited = true then .fixed 1 else m) with
            | err e => rfl
            | panic => rfl
            | ok lim =>
              simp only [Algebraic.unbound]
              by_cases hc : (List.filter (fun x => (AMap.get cc.vals x).isNone) cc.inputs).isEmpty = true <;> simp only [hc, if_true, if_false, Bool.false_eq_true]
          | some o =>
            simp only
            cases cc.simplifyOrder o with
            | err e => rfl
            | panic => rfl
            | ok od =>
              simp only
              cases cc.simplifyLimit (if g.isUnitLimited = true then .fixed 1 else m) with
              | err e => rfl
              | panic => rfl
              | ok lim =>
                simp only [Algebraic.unbound]
                by_cases hc : (List.filter (fun x => (AMap.get cc.vals x).isNone) cc.inputs).isEmpty = true <;> simp only [hc, if_true, if_false, Bool.false_eq_true]

theorem projectElements_find (a : Algebraic) {f : FindSpec} (h : f.elements = a.find.elements) :
    projectElements { a with find := f } = projectElements a := by
  unfold projectElements; simp only [h]

theorem selectRows_find (fl : Floats) (db : Tables) (a : Algebraic) (p : Projected) {f : FindSpec}
    (h : isDistinct { a with find := f } false = isDistinct a false) :
    selectRows fl db { a with find := f } p = selectRows fl db a p := by
  unfold selectRows; simp only [h]

end CC
open CC

section
variable {fl : Floats} {k : Known} {db : Tables} {q : FindQuery} {inputs : Inputs}

/-- C83.  A query for a collection gives the column a query for a relation of the one element gives, whatever the
element, the clauses, the inputs, the store and the cache; and fails if that fails. -/
theorem C83_coll (hl : ∀ x, q.limit ≠ .var x) (e : Element) : runQuery fl k db { q with find := .coll e } inputs =
    (runQuery fl k db { q with find := .rel [e] } inputs).bind fun r => .ok r.column := by
  unfold runQuery
  have h := algebrizeQuery_find (k := k) (q := q) (inputs := inputs) (f := .coll e) (g := .rel [e]) (l := q.limit) (m := q.limit)
    rfl hl hl rfl
  rw [h]
  cases hb : algebrizeQuery k { q with find := .rel [e] } inputs with
  | err e => rfl
  | panic => rfl
  | ok a =>
    have hf : a.find = .rel [e] := (algebrize_find hb).1
    simp only [Res.bind]
    unfold runAlgebrized
    rw [projectElements_find a (by rw [hf]; rfl)]
    simp only
    split
    · rw [hf]; rfl
    · have e1 : ({ a with find := .coll e } : Algebraic).fullyUnitBound = a.fullyUnitBound := by
        unfold Algebraic.fullyUnitBound; simp only [hf]; rfl
      rw [e1]
      split
      · unfold fromConstants
        simp only [hf]
        show (constants a.cc [e]).bind _ = ((constants a.cc [e]).bind _).bind _
        cases constants a.cc [e] <;> rfl
      · cases hp : projectElements a with
        | err e => rfl
        | panic => rfl
        | ok p =>
          simp only [Res.bind]
          rw [selectRows_find fl db a p (by unfold isDistinct; simp only [hf]; rfl)]
          cases selectRows fl db a p with
          | err e => rfl
          | panic => rfl
          | ok rows =>
            simp only [Res.bind, hf, project]
            have ht := templates_length hp
            rw [hf] at ht
            obtain ⟨t, ht⟩ := List.length_eq_one_iff.mp ht
            rw [ht]
            simp only [List.getLast?_singleton]
            cases lookupRows [t] rows <;> rfl

/-- C83.  A query for a tuple gives the row that a query for a relation limited to one row gives, if there is one. -/
theorem C83_tuple (hl : ∀ x, q.limit ≠ .var x) {es : List Element} (hes : es ≠ []) :
    runQuery fl k db { q with find := .tuple es } inputs =
      (runQuery fl k db { q with find := .rel es, limit := .fixed 1 } inputs).bind fun r => .ok r.onlyRow := by
  unfold runQuery
  have h := algebrizeQuery_find (k := k) (q := q) (inputs := inputs) (f := .tuple es) (g := .rel es) (l := q.limit) (m := .fixed 1)
    rfl hl (by simp) rfl
  rw [h]
  cases hb : algebrizeQuery k { q with find := .rel es, limit := .fixed 1 } inputs with
  | err e => rfl
  | panic => rfl
  | ok a =>
    obtain ⟨hf, cc, -, hlim, -⟩ := algebrize_find hb
    have hlim : a.limit = .fixed 1 := (Res.ok.inj hlim).symm
    simp only at hf
    simp only [Res.bind]
    unfold runAlgebrized
    rw [projectElements_find a (by rw [hf]; rfl)]
    simp only
    split
    · rw [hf]; rfl
    · have e1 : ({ a with find := .tuple es } : Algebraic).fullyUnitBound = a.fullyUnitBound := by
        unfold Algebraic.fullyUnitBound; simp only [hf]; rfl
      rw [e1]
      have hne : ∀ {vs : List TypedValue}, vs.length = es.length → ∀ w, (QResult.rel w vs).onlyRow = .tuple (some vs) := by
        intro vs hvs w
        cases vs with
        | nil => exact absurd (List.length_eq_zero_iff.mp hvs.symm) hes
        | cons v vs => rfl
      split
      · unfold fromConstants
        simp only [hf]
        show (constants a.cc es).bind _ = ((constants a.cc es).bind _).bind _
        cases hc : constants a.cc es with
        | err e => rfl
        | panic => rfl
        | ok vs =>
          simp only [Res.bind]
          rw [hne (length_constants hc)]
      · cases hp : projectElements a with
        | err e => rfl
        | panic => rfl
        | ok p =>
          simp only [Res.bind]
          rw [selectRows_find fl db a p (by unfold isDistinct; simp only [hf, hlim]; simp)]
          cases hr : selectRows fl db a p with
          | err e => rfl
          | panic => rfl
          | ok rows =>
            simp only [Res.bind, hf, project]
            have ht := templates_length hp
            rw [hf] at ht
            have hlen := selectRows_length hlim hr
            cases rows with
            | nil => rfl
            | cons r rows =>
              cases rows with
              | cons _ _ => simp at hlen
              | nil =>
                simp only [lookupRows, Res.bind]
                cases hv : lookupAll r p.templates with
                | err e => rfl
                | panic => rfl
                | ok vs =>
                  simp only [Res.bind, List.flatten_cons, List.flatten_nil, List.append_nil]
                  rw [hne]
                  rw [length_lookupAll hv, ht]; rfl

/-- C83.  A query for a scalar gives the value of the tuple of the one element. -/
theorem C83_scalar (hl : ∀ x, q.limit ≠ .var x) (e : Element) : runQuery fl k db { q with find := .scalar e } inputs =
    (runQuery fl k db { q with find := .tuple [e] } inputs).bind fun r => .ok r.onlyValue := by
  unfold runQuery
  have h := algebrizeQuery_find (k := k) (q := q) (inputs := inputs) (f := .scalar e) (g := .tuple [e]) (l := q.limit) (m := q.limit)
    rfl hl hl rfl
  rw [h]
  cases hb : algebrizeQuery k { q with find := .tuple [e] } inputs with
  | err e => rfl
  | panic => rfl
  | ok a =>
    have hf : a.find = .tuple [e] := (algebrize_find hb).1
    simp only [Res.bind]
    unfold runAlgebrized
    rw [projectElements_find a (by rw [hf]; rfl)]
    simp only
    split
    · rw [hf]; rfl
    · have e1 : ({ a with find := .scalar e } : Algebraic).fullyUnitBound = a.fullyUnitBound := by
        unfold Algebraic.fullyUnitBound; simp only [hf]; rfl
      rw [e1]
      split
      · unfold fromConstants
        simp only [hf]
        show (constants a.cc [e]).bind _ = ((constants a.cc [e]).bind _).bind _
        cases constants a.cc [e] <;> rfl
      · cases hp : projectElements a with
        | err e => rfl
        | panic => rfl
        | ok p =>
          simp only [Res.bind]
          rw [selectRows_find fl db a p (by unfold isDistinct; simp only [hf])]
          cases selectRows fl db a p with
          | err e => rfl
          | panic => rfl
          | ok rows =>
            simp only [Res.bind, hf, project]
            have ht := templates_length hp
            rw [hf] at ht
            obtain ⟨t, ht⟩ := List.length_eq_one_iff.mp ht
            rw [ht]
            cases rows with
            | nil => rfl
            | cons r rows =>
              simp only [List.getLast?_singleton, lookupAll, Res.bind]
              cases t.lookup r <;> rfl

theorem not_before_of_same {o : List (Bool × Var)} {ρ σ : Assign} (h : ∀ d ∈ o, ρ d.2 = σ d.2) : ¬ Assign.Before o ρ σ := by
  induction o with
  | nil => exact id
  | cons d o ih =>
    obtain ⟨b, x⟩ := d
    have hx : ρ x = σ x := h (b, x) List.mem_cons_self
    have ih := ih fun d hd => h d (List.mem_cons_of_mem _ hd)
    cases b <;> simp only [Assign.Before, hx] <;> rintro (h | ⟨-, h⟩)
    · exact before_irrefl _ h
    · exact ih h
    · exact before_irrefl _ h
    · exact ih h

variable {L : Var → Prop} {xs : List Var} {r : QResult}

theorem nodup_flatten_ones {α : Type} : ∀ {rows : List (List α)}, (∀ row ∈ rows, ∃ v, row = [v]) → rows.Nodup → rows.flatten.Nodup
  | [], _, _ => List.nodup_nil
  | row :: rows, h, hn => by
    obtain ⟨v, rfl⟩ := h row List.mem_cons_self
    rw [List.nodup_cons] at hn
    have h' : ∀ row ∈ rows, ∃ v, row = [v] := fun row hr => h row (List.mem_cons_of_mem _ hr)
    rw [List.flatten_cons, List.singleton_append, List.nodup_cons]
    refine ⟨fun hm => hn.1 ?_, nodup_flatten_ones h' hn.2⟩
    rw [List.mem_flatten] at hm
    obtain ⟨row, hr, hv⟩ := hm
    obtain ⟨w, rfl⟩ := h' row hr
    rw [List.mem_singleton] at hv
    rw [hv]; exact hr

/-- C83, for the queries treated: a query for a collection gives the values the answers have for its variable, each
once, unless ordered by others. -/
theorem C83_coll_answers_partial {x : Var} (ht : Treated k db L q inputs [x]) (hf : q.find = .coll (.var x)) (hlim : q.limit = .none)
    (h : runQuery fl k db q inputs = .ok r) :
    ∃ vs, r = .coll vs ∧ (∀ v ∈ vs, ∃ ρ, IsAnswer k.schema db.facts q inputs.values ρ ∧ v = ρ x) ∧
      (∀ ρ, IsAnswer k.schema db.facts q inputs.values ρ → ∃ v ∈ vs, (ρ x).Alike v) ∧
      (¬ L x → ∀ ρ, IsAnswer k.schema db.facts q inputs.values ρ → ρ x ∈ vs) ∧ (q.order = none → vs.Nodup) := by
  have hq : q = { q with find := .coll (.var x) } := by rw [← hf]
  rw [hq, C83_coll ht.limit] at h
  obtain ⟨r', h', h⟩ := bind_iff.mp h
  obtain rfl := Res.ok.inj h
  have hc : ClausesOk k.schema L (only q.inVars (AMap.get inputs.values)) { q with find := .rel [.var x] } := by
    refine ⟨ht.clauses.each, fun c hc y hy => ?_⟩
    have := ht.clauses.apart c hc y hy
    rw [hq] at this
    exact this
  have ht' : Treated k db L { q with find := .rel ([x].map .var) } inputs [x] :=
    ⟨⟨ht.cache, ht.ins, ht.limit, hc, ht.once, ht.given⟩, ht.store, ht.sources, ht.find, fun ρ hρ => ht.read ρ ⟨hρ.proper, hρ.inputs, hρ.sat⟩⟩
  obtain ⟨rows, rfl, h1, h2, h3, h4⟩ := C45_rows_partial ht' rfl hlim h'
  have hone : ∀ row ∈ rows, ∃ ρ, IsAnswer k.schema db.facts q inputs.values ρ ∧ row = [ρ x] := by
    intro row hr
    obtain ⟨ρ, hρ, e⟩ := h1 row hr
    exact ⟨ρ, ⟨hρ.proper, hρ.inputs, hρ.sat⟩, e⟩
  have hmem : ∀ v, v ∈ rows.flatten ↔ [v] ∈ rows := by
    intro v
    rw [List.mem_flatten]
    constructor
    · rintro ⟨row, hr, hv⟩
      obtain ⟨ρ, -, rfl⟩ := hone row hr
      rw [List.mem_singleton] at hv
      rw [hv]; exact hr
    · intro h; exact ⟨_, h, by simp⟩
  refine ⟨rows.flatten, rfl, ?_, ?_, ?_, ?_⟩
  · intro v hv
    obtain ⟨ρ, hρ, e⟩ := hone _ ((hmem v).mp hv)
    exact ⟨ρ, hρ, (List.cons.inj e).1⟩
  · intro ρ hρ
    obtain ⟨row, hr, ha⟩ := h2 [ρ x] ⟨ρ, ⟨hρ.proper, hρ.inputs, hρ.sat⟩, rfl⟩
    obtain ⟨ρ', -, rfl⟩ := hone row hr
    cases ha with
    | cons ha _ => exact ⟨_, (hmem _).mpr hr, ha⟩
  · intro hL ρ hρ
    exact (hmem _).mpr (h3 (by simpa using hL) [ρ x] ⟨ρ, ⟨hρ.proper, hρ.inputs, hρ.sat⟩, rfl⟩)
  · intro ho
    exact nodup_flatten_ones (fun row hr => have ⟨ρ, _, e⟩ := hone row hr; ⟨ρ x, e⟩) (h4 ho)

/-- C83, for the queries treated: a query for a tuple gives an answer if there is one, and nothing if there is none.
When the query is ordered by variables found whose types are known, no answer comes before the one given. -/
theorem C83_tuple_answers_partial (ht : Treated k db L q inputs xs) (hf : q.find = .tuple (xs.map .var))
    (h : runQuery fl k db q inputs = .ok r) :
    (r = .tuple none ∧ ∀ ρ, ¬ IsAnswer k.schema db.facts q inputs.values ρ) ∨
    ∃ ρ, r = .tuple (some (xs.map ρ)) ∧ IsAnswer k.schema db.facts q inputs.values ρ ∧
      ((∀ d ∈ q.order.getD [], d.2 ∈ xs ∧ ¬ L d.2) →
        ∀ σ, IsAnswer k.schema db.facts q inputs.values σ → ¬ Assign.Before (q.order.getD []) σ ρ) := by
  have hq : q = { q with find := .tuple (xs.map .var) } := by rw [← hf]
  have hes : xs.map Element.var ≠ [] := by
    obtain ⟨x, hx, -⟩ := ht.find
    simp only [ne_eq, List.map_eq_nil_iff]
    rintro rfl; cases hx
  rw [hq, C83_tuple ht.limit hes] at h
  obtain ⟨r', h', h⟩ := bind_iff.mp h
  obtain rfl := Res.ok.inj h
  have hc : ClausesOk k.schema L (only q.inVars (AMap.get inputs.values))
      { q with find := .rel (xs.map .var), limit := .fixed 1 } := by
    refine ⟨ht.clauses.each, fun c hc y hy => ?_⟩
    have := ht.clauses.apart c hc y hy
    rw [hq] at this
    exact this
  have ht' : Treated k db L { q with find := .rel (xs.map .var), limit := .fixed 1 } inputs xs :=
    ⟨⟨ht.cache, ht.ins, by simp, hc, ht.once, ht.given⟩, ht.store, ht.sources, ht.find, fun ρ hρ => ht.read ρ ⟨hρ.proper, hρ.inputs, hρ.sat⟩⟩
  obtain ⟨ρs, rfl, h1, -, h3, -, h5⟩ := C52_sorted_partial ht' rfl rfl h'
  have h3 := h3 1 rfl
  cases ρs with
  | nil =>
    left
    refine ⟨rfl, fun ρ hρ => ?_⟩
    rcases h5 ρ ⟨hρ.proper, hρ.inputs, hρ.sat⟩ with ⟨σ, hσ, -⟩ | ⟨n, hn, hl, -⟩
    · cases hσ
    · cases hn; cases hl
  | cons ρ ρs =>
    cases ρs with
    | cons _ _ => simp at h3
    | nil =>
      right
      have hρ := h1 ρ List.mem_cons_self
      refine ⟨ρ, ?_, ⟨hρ.proper, hρ.inputs, hρ.sat⟩, ?_⟩
      · cases xs with
        | nil => exact absurd rfl hes
        | cons x xs => simp [QResult.onlyRow]
      · intro ho σ hσ
        rcases h5 σ ⟨hσ.proper, hσ.inputs, hσ.sat⟩ with ⟨τ, hτ, -, hs⟩ | ⟨n, -, -, hb⟩
        · rw [List.mem_singleton] at hτ
          subst hτ
          exact not_before_of_same fun d hd => hs d.2 (ho d hd).1 (ho d hd).2
        · exact hb ρ List.mem_cons_self

/-- C83, for the queries treated: a query for a scalar gives the value of an answer if there is one, and nothing if there
is none. -/
theorem C83_scalar_answers_partial {x : Var} (ht : Treated k db L q inputs [x]) (hf : q.find = .scalar (.var x))
    (h : runQuery fl k db q inputs = .ok r) :
    (r = .scalar none ∧ ∀ ρ, ¬ IsAnswer k.schema db.facts q inputs.values ρ) ∨
    ∃ ρ, r = .scalar (some (ρ x)) ∧ IsAnswer k.schema db.facts q inputs.values ρ ∧
      ((∀ d ∈ q.order.getD [], d.2 = x ∧ ¬ L x) →
        ∀ σ, IsAnswer k.schema db.facts q inputs.values σ → ¬ Assign.Before (q.order.getD []) σ ρ) := by
  have hq : q = { q with find := .scalar (.var x) } := by rw [← hf]
  rw [hq, C83_scalar ht.limit] at h
  obtain ⟨r', h', h⟩ := bind_iff.mp h
  obtain rfl := Res.ok.inj h
  have hc : ClausesOk k.schema L (only q.inVars (AMap.get inputs.values)) { q with find := .tuple [.var x] } := by
    refine ⟨ht.clauses.each, fun c hc y hy => ?_⟩
    have := ht.clauses.apart c hc y hy
    rw [hq] at this
    exact this
  have ht' : Treated k db L { q with find := .tuple ([x].map .var) } inputs [x] :=
    ⟨⟨ht.cache, ht.ins, ht.limit, hc, ht.once, ht.given⟩, ht.store, ht.sources, ht.find, fun ρ hρ => ht.read ρ ⟨hρ.proper, hρ.inputs, hρ.sat⟩⟩
  rcases C83_tuple_answers_partial ht' rfl h' with ⟨rfl, hno⟩ | ⟨ρ, rfl, hρ, ho⟩
  · exact .inl ⟨rfl, fun ρ hρ => hno ρ ⟨hρ.proper, hρ.inputs, hρ.sat⟩⟩
  · refine .inr ⟨ρ, rfl, ⟨hρ.proper, hρ.inputs, hρ.sat⟩, fun hd σ hσ => ho (fun d hd' => ?_) σ ⟨hσ.proper, hσ.inputs, hσ.sat⟩⟩
    obtain ⟨h1, h2⟩ := hd d hd'
    exact ⟨by simp [h1], by rw [h1]; exact h2⟩

end

namespace QueryEx

/-- The longs, the greatest of them, and the entity that has the least. -/
theorem C83_example :
    run { find := .coll (.var y), clauses := [pat x "long" (.var y)] } [] = .ok (.coll [.long 1, .long 21]) ∧
    run { find := .scalar (.var y), clauses := [pat x "long" (.var y)], order := some [(false, y)] } [] = .ok (.scalar (some (.long 21))) ∧
    run { find := .tuple [.var x, .var y], clauses := [pat x "long" (.var y)], order := some [(true, y)] } [] =
      .ok (.tuple (some [.ref 20, .long 1])) :=
  ⟨by decide +kernel, by decide +kernel, by decide +kernel⟩

/-- The queries of the example are treated. -/
theorem C83_example_treated :
    Treated ⟨schema, none⟩ store (fun _ => False)
      { find := .coll (.var y), clauses := [pat x "long" (.var y)] } (Inputs.ofValues []) [y] ∧
    Treated ⟨schema, none⟩ store (fun _ => False)
      { find := .scalar (.var y), clauses := [pat x "long" (.var y)], order := some [(false, y)] } (Inputs.ofValues []) [y] ∧
    Treated ⟨schema, none⟩ store (fun _ => False)
      { find := .tuple [.var x, .var y], clauses := [pat x "long" (.var y)], order := some [(true, y)] } (Inputs.ofValues [])
      [x, y] := by
  have key : ∀ (q : FindQuery) (xs : List Var), q.clauses = [pat x "long" (.var y)] → q.inVars = [] → q.limit = .none →
      (∃ v, v ∈ xs) → (∀ v ∈ xs, v = x ∨ v = y) → Treated ⟨schema, none⟩ store (fun _ => False) q (Inputs.ofValues []) xs := by
    intro q xs hc hin hl hne hxs
    refine ⟨⟨rfl, inputs_ok AMap.wf_nil (by simp), by simp [hl], ?_, looseOnce_false _, by simp⟩, store_ok,
      by simp [hc, WhereClause.usesAll, WhereClause.uses, pat], hne.imp fun v hv => ⟨hv, by simp [hin]⟩, ?_⟩
    · refine .simple ?_
      rw [hc]
      simp only [pat, WhereClause.SimpleAll, WhereClause.Simple, and_true]
      exact patOk_known (pat_known x "long" y) (by simp [Pattern.NoKeyword, hin, only])
    · intro ρ hρ
      have hs := hρ.sat
      rw [hc] at hs
      simp only [SatAll, pat, Sat] at hs
      refine readable_patterns (s := schema) C45_example_hyps.2.1
        (ps := [{ e := .var x, a := .ident (kw "long"), v := .var y, tx := .placeholder }]) ?_ ρ ?_
      · intro v hv
        refine ⟨_, List.mem_singleton.mpr rfl, ?_⟩
        simpa [Pattern.vars, NonValue.vars, PatValue.vars] using hxs v hv
      · intro p hp
        rw [List.mem_singleton] at hp
        subst hp
        exact hs.1
  exact ⟨key _ _ rfl rfl rfl ⟨y, by simp⟩ (by simp), key _ _ rfl rfl rfl ⟨y, by simp⟩ (by simp),
    key _ _ rfl rfl rfl ⟨x, by simp⟩ (by simp)⟩

end QueryEx
end Mentat
