import Verif.Model.QueryResult
import Verif.Props.QueryLog
import Verif.Proofs.QueryKept
import Verif.Proofs.QueryOrder
import Verif.Props.QueryExamples
/-
C51: results have the shape asked for; C52: limits and orderings; C44: inputs.  These are about all
queries, whatever their clauses.
-/
namespace Mentat
open CC

/-! ### The ways to read a relation agree -/

namespace RelResult
variable {α : Type}

theorem chunksUpTo_flatten {w : Nat} (hw : 0 < w) : ∀ {rows : List (List α)} (_ : ∀ r ∈ rows, r.length = w) {n : Nat},
    rows.flatten.length ≤ n → chunksUpTo w n rows.flatten = rows
  | [], _, n, _ => by cases n <;> rfl
  | r :: rows, h, n, hn => by
    have hr := h r (by simp)
    obtain ⟨x, l, hx⟩ : ∃ x l, r = x :: l := by
      cases r with
      | nil => simp at hr; omega
      | cons x l => exact ⟨x, l, rfl⟩
    subst hx
    simp only [List.flatten_cons, List.length_append] at hn
    cases n with
    | zero => simp at hn
    | succ n =>
      have e1 : ((x :: l) ++ rows.flatten).take w = x :: l := by rw [← hr]; simp
      have e2 : ((x :: l) ++ rows.flatten).drop w = rows.flatten := by rw [← hr]; simp
      have hn' : rows.flatten.length ≤ n := by simp only [List.length_cons] at hn; omega
      rw [List.flatten_cons, List.cons_append, chunksUpTo]
      rw [← List.cons_append, e1, e2, chunksUpTo_flatten hw (fun r hr => h r (by simp [hr])) hn']

theorem iterUpTo_flatten {w : Nat} (hw : 0 < w) : ∀ {rows : List (List α)} (_ : ∀ r ∈ rows, r.length = w) {n : Nat},
    rows.flatten.length < n → iterUpTo w n rows.flatten = rows
  | [], _, n, _ => by cases n <;> simp [iterUpTo]
  | r :: rows, h, n, hn => by
    have hr := h r (by simp)
    simp only [List.flatten_cons, List.length_append] at hn
    cases n with
    | zero => omega
    | succ n =>
      have e1 : (r ++ rows.flatten).take w = r := by rw [← hr]; simp
      have e2 : (r ++ rows.flatten).drop w = rows.flatten := by rw [← hr]; simp
      have hne : r.isEmpty = false := by
        cases r with
        | nil => simp at hr; omega
        | cons => rfl
      rw [List.flatten_cons, iterUpTo, e1, e2, hne, if_neg (by simp),
        iterUpTo_flatten hw (fun r hr => h r (by simp [hr])) (by omega)]

theorem length_flatten {w : Nat} : ∀ {rows : List (List α)}, (∀ r ∈ rows, r.length = w) → rows.flatten.length = w * rows.length
  | [], _ => by simp
  | r :: rows, h => by
    rw [List.flatten_cons, List.length_append, h r (by simp), length_flatten fun r hr => h r (by simp [hr]),
      List.length_cons, Nat.mul_succ, Nat.add_comm]

theorem row_flatten {w : Nat} : ∀ {rows : List (List α)} (_ : ∀ r ∈ rows, r.length = w) {i : Nat},
    i < rows.length → some ((rows.flatten.drop (w * i)).take w) = rows[i]?
  | r :: rows, h, 0, _ => by
    have hr := h r (by simp)
    simp only [Nat.mul_zero, List.drop_zero, List.flatten_cons, List.getElem?_cons_zero]
    rw [← hr]; simp
  | r :: rows, h, i + 1, hi => by
    have hr := h r (by simp)
    simp only [List.getElem?_cons_succ]
    rw [← row_flatten (fun r hr => h r (by simp [hr])) (by simpa using hi)]
    have : w * (i + 1) = r.length + w * i := by rw [hr, Nat.mul_succ, Nat.add_comm]
    rw [List.flatten_cons, this]
    simp [List.drop_append, List.drop_eq_nil_of_le (show r.length ≤ r.length + w * i by omega)]

/-- C51.  The rows of a result, read with `rows`, with `row` by index, or with `into_iter`, are the same,
and `row_count` is their number: for any number of rows of any positive width. -/
theorem C51_rows {w : Nat} (hw : 0 < w) {rows : List (List α)} (h : ∀ r ∈ rows, r.length = w) :
    (⟨w, rows.flatten⟩ : RelResult α).rows = .ok rows ∧
    (∀ i, (⟨w, rows.flatten⟩ : RelResult α).row i = rows[i]?) ∧
    (⟨w, rows.flatten⟩ : RelResult α).intoIter = rows ∧
    (⟨w, rows.flatten⟩ : RelResult α).rowCount = .ok rows.length ∧
    ((⟨w, rows.flatten⟩ : RelResult α).isEmpty = true ↔ rows = []) := by
  have hl := length_flatten h
  refine ⟨?_, ?_, ?_, ?_, ?_⟩
  · simp only [RelResult.rows, if_neg (by omega : ¬ w = 0)]
    rw [chunksUpTo_flatten hw h (Nat.le_refl _)]
  · intro i
    simp only [RelResult.row, hl]
    split
    · rename_i hi
      have hlt := Nat.lt_of_mul_lt_mul_left hi
      exact (List.getElem?_eq_none (by omega)).symm
    · rename_i hi
      have hle := Nat.le_of_mul_le_mul_left (Nat.le_of_not_lt hi) hw
      exact row_flatten h (by omega)
  · exact iterUpTo_flatten hw h (by simp)
  · simp only [RelResult.rowCount, if_neg (by omega : ¬ w = 0), hl]
    rw [Nat.mul_div_cancel_left _ hw]
  · simp only [RelResult.isEmpty, List.isEmpty_iff]
    constructor
    · intro e
      rw [e] at hl
      cases rows with
      | nil => rfl
      | cons r rows => 
        simp only [List.length_nil, List.length_cons] at hl
        have := Nat.mul_pos hw (Nat.succ_pos rows.length)
        rw [← hl] at this
        cases this
    · rintro rfl; rfl

/-- C51: rows of one positive width survive being made into a result. -/
theorem C51_ofRows {w : Nat} (hw : 0 < w) {rows : List (List α)} (hne : rows ≠ []) (h : ∀ r ∈ rows, r.length = w) :
    (ofRows rows).intoIter = rows ∧ (ofRows rows).rows = .ok rows := by
  cases rows with
  | nil => exact absurd rfl hne
  | cons r rows =>
    have e : ofRows (r :: rows) = ⟨w, (r :: rows).flatten⟩ := by
      show (⟨r.length, (r :: rows).flatten⟩ : RelResult α) = _
      rw [h r (by simp)]
    rw [e]
    obtain ⟨h1, -, h3, -⟩ := C51_rows hw h
    exact ⟨h3, h1⟩

/-- C51: of no rows a result of width zero is made, of which `rows` and `row_count` panic, while every
index gives a row. -/
theorem C51_fails_no_rows : (ofRows ([] : List (List α))).rows = .panic ∧ (ofRows ([] : List (List α))).rowCount = .panic ∧
    ∀ i, (ofRows ([] : List (List α))).row i = some [] := by
  refine ⟨rfl, rfl, fun i => ?_⟩
  simp [ofRows, RelResult.empty, RelResult.row]

end RelResult

/-! ### The shape of a result -/

namespace CC

theorem templates_projectVar {cc : CC} {p p' : Proj} {x : Var} (h : cc.projectVar p x = .ok p') :
    p'.templates.length = p.templates.length + 1 := by
  unfold projectVar at h
  obtain ⟨r, -, h⟩ := bind_iff.mp h
  simp only at h
  split at h
  · obtain rfl := Res.ok.inj h; simp
  · obtain ⟨tc, -, h⟩ := bind_iff.mp h
    obtain rfl := Res.ok.inj h; simp

theorem templates_projectElement {cc : CC} {p p' : Proj} {e : Element} (h : cc.projectElement p e = .ok p') :
    p'.templates.length = p.templates.length + 1 := by
  cases e with
  | var x =>
    rw [projectElement] at h
    split at h
    · cases h
    · have := templates_projectVar h; exact this
  | corresponding x =>
    rw [projectElement] at h
    split at h
    · cases h
    · have := templates_projectVar h; exact this
  | pull x =>
    rw [projectElement] at h
    obtain ⟨r, -, h⟩ := bind_iff.mp h
    split at h
    · have := templates_projectVar h; exact this
    · cases h
  | aggregate op args =>
    rw [projectElement] at h
    split at h
    · cases h
    · obtain ⟨r, -, h⟩ := bind_iff.mp h
      simp only at h
      obtain ⟨p1, h1, h⟩ := bind_iff.mp h
      obtain rfl := Res.ok.inj h
      have : p1.templates = p.templates := by
        split at h1
        · obtain rfl := Res.ok.inj h1; rfl
        · obtain ⟨c, -, h1⟩ := bind_iff.mp h1
          split at h1
          · obtain ⟨tc, -, h1⟩ := bind_iff.mp h1
            obtain rfl := Res.ok.inj h1; rfl
          · obtain rfl := Res.ok.inj h1; rfl
      simp [this]

theorem templates_loop {cc : CC} : ∀ (es : List Element) {p p' : Proj}, cc.projectElementsLoop p es = .ok p' →
    p'.templates.length = p.templates.length + es.length
  | [], p, p', h => by obtain rfl := Res.ok.inj h; rfl
  | e :: es, p, p', h => by
    rw [projectElementsLoop] at h
    obtain ⟨p1, h1, h⟩ := bind_iff.mp h
    rw [templates_loop es h, templates_projectElement h1, List.length_cons]
    omega

theorem templates_named {cc : CC} : ∀ (xs : List Var) {p p' : Proj}, cc.projectNamed p xs = .ok p' → p'.templates = p.templates
  | [], p, p', h => by obtain rfl := Res.ok.inj h; rfl
  | x :: xs, p, p', h => by
    rw [projectNamed] at h
    split at h
    · have := templates_named xs h; exact this
    · split at h
      · simp only at h
        split at h
        · have := templates_named xs h; exact this
        · obtain ⟨tc, -, h⟩ := bind_iff.mp h
          have := templates_named xs h; exact this
      · cases h

theorem templates_group {cc : CC} : ∀ (xs : List (Var × Bool)) {p : Proj} {gb : List Col} {r : Proj × List Col},
    cc.projectGroup p gb xs = .ok r → r.1.templates = p.templates
  | [], p, gb, r, h => by obtain rfl := Res.ok.inj h; rfl
  | (x, g) :: xs, p, gb, r, h => by
    rw [projectGroup] at h
    split at h
    · exact templates_group xs h
    · simp only at h
      obtain ⟨p1, h1, h⟩ := bind_iff.mp h
      have e1 : p1.templates = p.templates := by
        split at h1
        · obtain rfl := Res.ok.inj h1; rfl
        · split at h1
          · obtain rfl := Res.ok.inj h1; rfl
          · cases h1
      split at h
      · rw [templates_group xs h, e1]
      · obtain ⟨p2, h2, h⟩ := bind_iff.mp h
        have e2 : p2.templates = p1.templates := by
          split at h2
          · obtain rfl := Res.ok.inj h2; rfl
          · obtain ⟨tc, -, h2⟩ := bind_iff.mp h2
            obtain rfl := Res.ok.inj h2; rfl
        rw [templates_group xs h, e2, e1]

theorem templates_with {cc : CC} : ∀ (xs : List Var) {p p' : Proj}, cc.projectWith p xs = .ok p' → p'.templates = p.templates
  | [], p, p', h => by obtain rfl := Res.ok.inj h; rfl
  | x :: xs, p, p', h => by
    rw [projectWith] at h
    split at h
    · have := templates_with xs h; exact this
    · obtain ⟨r, -, h⟩ := bind_iff.mp h
      simp only at h
      split at h
      · have := templates_with xs h; exact this
      · obtain ⟨tc, -, h⟩ := bind_iff.mp h
        have := templates_with xs h; exact this

/-- There is a template for each element. -/
theorem templates_length {a : Algebraic} {p : Projected} (h : projectElements a = .ok p) :
    p.templates.length = a.find.elements.length := by
  unfold projectElements at h
  obtain ⟨p0, h0, h⟩ := bind_iff.mp h
  have e0 : p0.templates.length = a.find.elements.length := by rw [templates_loop _ h0]; simp
  split at h
  · cases h
  · obtain ⟨p1, h1, h⟩ := bind_iff.mp h
    have e1 := templates_named _ h1
    split at h
    · obtain rfl := Res.ok.inj h; simp only; rw [e1, e0]
    · obtain ⟨pg, h2, h⟩ := bind_iff.mp h
      have e2 := templates_group _ h2
      obtain ⟨p3, h3, h⟩ := bind_iff.mp h
      have e3 := templates_with _ h3
      obtain rfl := Res.ok.inj h
      simp only; rw [e3, e2, e1, e0]

theorem length_lookupAll {row : List SqlValue} : ∀ {ts : List TIndex} {vs : List TypedValue}, lookupAll row ts = .ok vs →
    vs.length = ts.length
  | [], vs, h => by obtain rfl := Res.ok.inj h; rfl
  | t :: ts, vs, h => by
    rw [lookupAll] at h
    obtain ⟨v, -, h⟩ := bind_iff.mp h
    obtain ⟨r, h1, h⟩ := bind_iff.mp h
    obtain rfl := Res.ok.inj h
    simp [length_lookupAll h1]

theorem length_lookupRows {ts : List TIndex} : ∀ {rows : List (List SqlValue)} {vs : List (List TypedValue)},
    lookupRows ts rows = .ok vs → vs.length = rows.length ∧ ∀ v ∈ vs, v.length = ts.length
  | [], vs, h => by obtain rfl := Res.ok.inj h; simp
  | r :: rows, vs, h => by
    rw [lookupRows] at h
    obtain ⟨v, hv, h⟩ := bind_iff.mp h
    obtain ⟨vs', h1, h⟩ := bind_iff.mp h
    obtain rfl := Res.ok.inj h
    obtain ⟨g1, g2⟩ := length_lookupRows h1
    refine ⟨by simp [g1], ?_⟩
    intro u hu
    rw [List.mem_cons] at hu
    rcases hu with rfl | hu
    · exact length_lookupAll hv
    · exact g2 u hu

theorem length_constants {cc : CC} : ∀ {es : List Element} {vs : List TypedValue}, constants cc es = .ok vs → vs.length = es.length
  | [], vs, h => by obtain rfl := Res.ok.inj h; rfl
  | .var x :: es, vs, h => by
    rw [constants] at h
    split at h
    · obtain ⟨r, h1, h⟩ := bind_iff.mp h
      obtain rfl := Res.ok.inj h
      simp [length_constants h1]
    · cases h
  | .corresponding x :: es, vs, h => by
    rw [constants] at h
    split at h
    · obtain ⟨r, h1, h⟩ := bind_iff.mp h
      obtain rfl := Res.ok.inj h
      simp [length_constants h1]
    · cases h
  | .aggregate _ _ :: es, vs, h => by simp [constants] at h
  | .pull _ :: es, vs, h => by simp [constants] at h

theorem aggregateRows_length {fl : Floats} {names : List Col} {cols : List OuterCol} {gb : List Col} {order : List (Bool × Col)}
    {n : Nat} {rows out : List (List SqlValue)} (h : aggregateRows fl names cols gb order (some n) rows = .ok out) :
    out.length ≤ n := by
  unfold aggregateRows at h
  simp only at h
  split at h
  · cases h
  obtain ⟨o, -, h⟩ := bind_iff.mp h
  obtain rfl := Res.ok.inj h
  exact Nat.le_trans (List.length_filter_le _ _) finishRows_length

theorem selectRows_length {fl : Floats} {db : Tables} {a : Algebraic} {p : Projected} {n : Nat} {rows : List (List SqlValue)}
    (hl : a.limit = .fixed n) (h : selectRows fl db a p = .ok rows) : rows.length ≤ n := by
  unfold selectRows at h
  obtain ⟨lim, hlim, h⟩ := bind_iff.mp h
  rw [hl] at hlim
  obtain rfl := Res.ok.inj hlim
  split at h
  · obtain ⟨s, hs, h⟩ := bind_iff.mp h
    unfold runSql at h
    split at h
    · obtain rfl := Res.ok.inj h
      unfold toSelect at hs
      split at hs
      · cases hs
      · obtain rfl := Res.ok.inj hs
        rw [evalSelect]
        split
        · exact Nat.le_trans finishRows_length (Nat.zero_le n)
        · exact finishRows_length
    · cases h
  · obtain ⟨s, hs, h⟩ := bind_iff.mp h
    obtain ⟨r, -, h⟩ := bind_iff.mp h
    exact aggregateRows_length h

end CC

/-- The rows of a result of a query for rows: those of `es` elements each, at most `n` of them if that is
the limit. -/
structure Shape (spec : FindSpec) (limit : Option Nat) (r : QResult) : Prop where
  scalar : ∀ e, spec = .scalar e → ∃ o, r = .scalar o
  tuple : ∀ es, spec = .tuple es → ∃ o, r = .tuple o ∧ ∀ l, o = some l → l.length = es.length
  coll : ∀ e, spec = .coll e → ∃ l, r = .coll l ∧ ∀ n, limit = some n → l.length ≤ n
  rel : ∀ es, spec = .rel es → ∃ rows : List (List TypedValue), r = .rel es.length rows.flatten ∧
    (∀ row ∈ rows, row.length = es.length) ∧ ∀ n, limit = some n → rows.length ≤ n

theorem shape_run {fl : Floats} {db : Tables} {a : Algebraic} {r : QResult} {lim : Option Nat}
    (hl : ∀ n, lim = some n → a.limit = .fixed n ∧ 0 < n) (h : runAlgebrized fl db a = .ok r) : Shape a.find lim r := by
  unfold runAlgebrized at h
  split at h
  · obtain rfl := Res.ok.inj h
    cases hf : a.find with
    | scalar e => exact ⟨fun _ _ => ⟨_, rfl⟩, by simp, by simp, by simp⟩
    | tuple es => exact ⟨by simp, fun _ _ => ⟨_, rfl, by simp⟩, by simp, by simp⟩
    | coll e => exact ⟨by simp, by simp, fun _ _ => ⟨_, rfl, by simp⟩, by simp⟩
    | rel es =>
      refine ⟨by simp, by simp, by simp, fun es' e => ⟨[], ?_, by simp, by simp⟩⟩
      cases e
      simp [QResult.empty]
  · split at h
    · unfold fromConstants at h
      obtain ⟨vs, hvs, h⟩ := bind_iff.mp h
      obtain rfl := Res.ok.inj h
      have hlen := length_constants hvs
      cases hf : a.find with
      | scalar e => exact ⟨fun _ _ => ⟨_, rfl⟩, by simp, by simp, by simp⟩
      | tuple es =>
        refine ⟨by simp, fun es' e => ⟨_, rfl, ?_⟩, by simp, by simp⟩
        cases e
        rw [hf] at hlen
        rintro l ⟨⟩
        exact hlen
      | coll e =>
        refine ⟨by simp, by simp, fun e' _ => ⟨_, rfl, fun n hn => ?_⟩, by simp⟩
        rw [hf] at hlen
        have := (hl n hn).2
        simp only [FindSpec.elements, List.length_cons, List.length_nil] at hlen
        omega
      | rel es =>
        refine ⟨by simp, by simp, by simp, fun es' e => ⟨[vs], ?_, ?_, fun n hn => ?_⟩⟩
        · cases e; simp
        · cases e
          rw [hf] at hlen
          simpa [FindSpec.elements] using hlen
        · have := (hl n hn).2
          simp only [List.length_cons, List.length_nil]
          omega
    · obtain ⟨p, hp, h⟩ := bind_iff.mp h
      obtain ⟨rows, hrows, h⟩ := bind_iff.mp h
      have ht := templates_length hp
      have hlim : ∀ n, lim = some n → rows.length ≤ n := fun n hn => selectRows_length (hl n hn).1 hrows
      cases hf : a.find with
      | scalar e =>
        rw [hf] at h
        refine ⟨fun _ _ => ?_, by simp, by simp, by simp⟩
        simp only [project] at h
        split at h
        · obtain rfl := Res.ok.inj h; exact ⟨_, rfl⟩
        · split at h
          · obtain ⟨v, -, h⟩ := bind_iff.mp h
            obtain rfl := Res.ok.inj h; exact ⟨_, rfl⟩
          · cases h
      | tuple es =>
        rw [hf] at h ht
        refine ⟨by simp, fun es' e => ?_, by simp, by simp⟩
        cases e
        simp only [project] at h
        split at h
        · obtain rfl := Res.ok.inj h; exact ⟨_, rfl, by simp⟩
        · obtain ⟨v, hv, h⟩ := bind_iff.mp h
          obtain rfl := Res.ok.inj h
          refine ⟨_, rfl, ?_⟩
          rintro l ⟨⟩
          rw [length_lookupAll hv, ht]; rfl
      | coll e =>
        rw [hf] at h ht
        refine ⟨by simp, by simp, fun _ _ => ?_, by simp⟩
        simp only [project] at h
        split at h
        · obtain ⟨vs, hvs, h⟩ := bind_iff.mp h
          obtain rfl := Res.ok.inj h
          refine ⟨_, rfl, fun n hn => ?_⟩
          obtain ⟨g1, g2⟩ := length_lookupRows hvs
          rw [RelResult.length_flatten g2, g1]
          simpa using hlim n hn
        · cases h
      | rel es =>
        rw [hf] at h ht
        refine ⟨by simp, by simp, by simp, fun es' e => ?_⟩
        cases e
        simp only [project] at h
        obtain ⟨vs, hvs, h⟩ := bind_iff.mp h
        obtain rfl := Res.ok.inj h
        obtain ⟨g1, g2⟩ := length_lookupRows hvs
        refine ⟨vs, rfl, fun row hr => ?_, fun n hn => by rw [g1]; exact hlim n hn⟩
        rw [g2 row hr, ht]; rfl

theorem algebrize_find {k : Known} {q : FindQuery} {inputs : Inputs} {a : Algebraic} (h : algebrizeQuery k q inputs = .ok a) :
    a.find = q.find ∧ ∃ cc, a.cc = cc ∧ cc.simplifyLimit (if q.find.isUnitLimited then .fixed 1 else q.limit) = .ok a.limit ∧
      (match q.order with
        | none => Res.ok ([], [])
        | some o => cc.simplifyOrder o) = .ok (a.order, a.named) := by
  unfold algebrizeQuery at h
  obtain ⟨q', hq', h⟩ := bind_iff.mp h
  rw [fromParsed_same hq'] at h
  obtain ⟨a', ha, h⟩ := bind_iff.mp h
  split at h
  rotate_left
  · cases h
  obtain rfl := Res.ok.inj h
  unfold algebrize at ha
  obtain ⟨cc0, h0, ha⟩ := bind_iff.mp ha
  simp only at ha
  obtain ⟨cc3, h3, ha⟩ := bind_iff.mp ha
  obtain ⟨cc, hfin, ha⟩ := bind_iff.mp ha
  obtain ⟨od, ho, ha⟩ := bind_iff.mp ha
  obtain ⟨lim, hl, ha⟩ := bind_iff.mp ha
  obtain rfl := Res.ok.inj ha
  exact ⟨rfl, _, rfl, hl, ho⟩

section
variable {fl : Floats} {k : Known} {db : Tables} {q : FindQuery} {inputs : Inputs} {r : QResult}

/-- C51.  Whatever the clauses, the inputs, the store and the cache: a query for a scalar gives at most one
value; one for a tuple at most one, of as many values as asked for; one for a relation rows of that many
values. -/
theorem C51_shape (h : runQuery fl k db q inputs = .ok r) : Shape q.find none r := by
  unfold runQuery at h
  obtain ⟨a, ha, h⟩ := bind_iff.mp h
  rw [← (algebrize_find ha).1]
  exact shape_run (by simp) h

/-- C51.  The rows of the relation a query gives can be read in all ways. -/
theorem C51_readable {es : List Element} (hes : es ≠ []) (hf : q.find = .rel es) (h : runQuery fl k db q inputs = .ok r) :
    ∃ rr rows, r.intoRel = .ok rr ∧ rr.rows = .ok rows ∧ (∀ i, rr.row i = rows[i]?) ∧ rr.intoIter = rows ∧
      r.len = .ok rows.length ∧ ∀ row ∈ rows, row.length = es.length := by
  obtain ⟨rows, h1, h2, -⟩ := (C51_shape h).rel es hf
  have hpos : 0 < es.length := List.length_pos_iff.mpr hes
  obtain ⟨g1, g2, g3, g4, -⟩ := RelResult.C51_rows hpos h2
  exact ⟨⟨es.length, rows.flatten⟩, rows, by rw [h1]; rfl, g1, g2, g3, by rw [h1]; exact g4, h2⟩

/-- C51.  Taking the result of a query for a tuple as a Rust tuple of `n` succeeds exactly if `n` elements
were asked for; as a vector it always succeeds, with that many values. -/
theorem C51_tuple {es : List Element} (hf : q.find = .tuple es) (h : runQuery fl k db q inputs = .ok r) (n : Nat) :
    ((∃ o, intoTuple (some n) q.find r = .ok o) ↔ n = es.length) ∧
    ∃ o, r = .tuple o ∧ intoTuple none q.find r = .ok o ∧ (n = es.length → intoTuple (some n) q.find r = .ok o) ∧
      ∀ l, o = some l → l.length = es.length := by
  obtain ⟨o, rfl, ho⟩ := (C51_shape h).tuple es hf
  have hv : intoTuple none q.find (.tuple o) = .ok o := by
    simp only [intoTuple, QResult.intoTuple, Res.bind, hf, FindSpec.columnCount, fromBindingVec]
    cases o with
    | none => simp
    | some l => simp [ho l rfl]
  have hn : n = es.length → intoTuple (some n) q.find (.tuple o) = .ok o := by
    rintro rfl
    simp only [intoTuple, QResult.intoTuple, Res.bind, hf, FindSpec.columnCount, fromBindingVec]
    cases o with
    | none => simp
    | some l => simp [ho l rfl]
  refine ⟨⟨?_, fun e => ⟨o, hn e⟩⟩, o, rfl, hv, hn, ho⟩
  rintro ⟨o', h'⟩
  apply Decidable.byContradiction
  intro hne
  simp only [intoTuple, QResult.intoTuple, Res.bind, hf, FindSpec.columnCount, fromBindingVec] at h'
  rw [if_pos (by simp; exact fun e => hne e.symm)] at h'
  cases h'

/-- C51.  A vector of values is accepted exactly if it has the expected length, and for a Rust tuple if that
has it too; no vector is accepted as no answer. -/
theorem C51_binding (arity : Option Nat) (expected : Nat) (vec o : Option (List TypedValue)) :
    (fromBindingVec arity expected vec = .ok o ↔
      (∀ n, arity = some n → n = expected) ∧ (∀ v, vec = some v → v.length = expected) ∧ o = vec) ∧
    fromBindingVec arity expected vec ≠ .panic := by
  unfold fromBindingVec
  cases arity with
  | none =>
    cases vec with
    | none => simp [eq_comm]
    | some v =>
      by_cases h : expected = v.length
      · simp [h, eq_comm]
      · have h' : ¬ v.length = expected := fun e => h e.symm
        simp [h, h']
  | some n =>
    by_cases hn : expected = n
    · subst hn
      cases vec with
      | none => simp [eq_comm]
      | some v =>
        by_cases h : expected = v.length
        · simp [h, eq_comm]
        · have h' : ¬ v.length = expected := fun e => h e.symm
          simp [h, h']
    · have hn' : ¬ n = expected := fun e => hn e.symm
      simp [hn, hn']

/-- The result has at most `n` rows. -/
def AtMost (n : Nat) : QResult → Prop
  | .scalar _ => True
  | .tuple _ => True
  | .coll l => l.length ≤ n
  | .rel w vs => ∃ rows : List (List TypedValue), vs = rows.flatten ∧ (∀ row ∈ rows, row.length = w) ∧ rows.length ≤ n

theorem Shape.atMost {spec : FindSpec} {n : Nat} (h : Shape spec (some n) r) : AtMost n r := by
  cases spec with
  | scalar e => obtain ⟨o, rfl⟩ := h.scalar e rfl; trivial
  | tuple es => obtain ⟨o, rfl, -⟩ := h.tuple es rfl; trivial
  | coll e => obtain ⟨l, rfl, hl⟩ := h.coll e rfl; exact hl n rfl
  | rel es => obtain ⟨rows, rfl, h1, h2⟩ := h.rel es rfl; exact ⟨rows, rfl, h1, h2 n rfl⟩

/-- A result of at most `n` rows, of some width, has a length of at most `n`. -/
theorem AtMost.len {n : Nat} (h : AtMost n r) (hn : 0 < n) (hw : ∀ vs, r ≠ .rel 0 vs) : ∃ m ≤ n, r.len = .ok m := by
  cases r with
  | scalar o => refine ⟨_, ?_, rfl⟩; split <;> omega
  | tuple o => refine ⟨_, ?_, rfl⟩; split <;> omega
  | coll l => exact ⟨_, h, rfl⟩
  | rel w vs =>
    obtain ⟨rows, rfl, h1, h2⟩ := h
    have hw : 0 < w := Nat.pos_of_ne_zero (by rintro rfl; exact hw _ rfl)
    exact ⟨rows.length, h2, (RelResult.C51_rows hw h1).2.2.2.1⟩

/-- C52.  A positive limit bounds the number of rows, whatever the clauses, the inputs, the store and the
cache. -/
theorem C52_limit {n : Nat} (hn : 0 < n) (hlim : q.limit = .fixed n) (h : runQuery fl k db q inputs = .ok r) : AtMost n r := by
  unfold runQuery at h
  obtain ⟨a, ha, h⟩ := bind_iff.mp h
  obtain ⟨hf, cc, -, hl, -⟩ := algebrize_find ha
  rw [hlim] at hl
  cases hu : q.find.isUnitLimited with
  | true =>
    have := shape_run (lim := none) (by simp) h
    rw [hf] at this
    cases hq : q.find with
    | scalar e => obtain ⟨o, rfl⟩ := this.scalar e hq; trivial
    | tuple es => obtain ⟨o, rfl, -⟩ := this.tuple es hq; trivial
    | coll e => rw [hq] at hu; cases hu
    | rel es => rw [hq] at hu; cases hu
  | false =>
    rw [hu] at hl
    have hl : a.limit = .fixed n := (Res.ok.inj hl).symm
    exact (shape_run (lim := some n) (fun m hm => by cases hm; exact ⟨hl, hn⟩) h).atMost

/-- C52.  A limit that is an input is honoured if it is a positive long.  Any other limit is rejected,
unless the query is for a scalar or a tuple, see `C52_fails_unit`, or its variable is bound by `ground` or
from a cache. -/
theorem C52_limit_input_partial (hk : k.cache = none) (hg : WhereClause.groundsAny q.clauses = false) {x : Var}
    (hlim : q.limit = .var x) (hu : q.find.isUnitLimited = false) (h : runQuery fl k db q inputs = .ok r) :
    ∃ n : Int, AMap.get inputs.values x = some (.long n) ∧ 0 < n ∧ AtMost n.toNat r := by
  unfold runQuery at h
  obtain ⟨a, ha, h⟩ := bind_iff.mp h
  obtain ⟨hf, cc, rfl, hl, -⟩ := algebrize_find ha
  obtain ⟨-, hvals, hbound⟩ := algebrize_vals hk hg ha
  have hin : x ∈ q.inVars := by
    unfold algebrizeQuery at ha
    obtain ⟨q', hq', -⟩ := bind_iff.mp ha
    unfold fromParsed at hq'
    split at hq'
    · cases hq'
    · split at hq'
      · cases hq'
      · rw [hlim] at hq'
        simp only at hq'
        split at hq'
        · assumption
        · cases hq'
  rw [hu, hlim] at hl
  simp only [Bool.false_eq_true, if_false, simplifyLimit, hvals x, if_pos hin] at hl
  have hb := hbound x hin
  cases hv : AMap.get inputs.values x with
  | none => rw [hv] at hb; cases hb
  | some v =>
    rw [hv] at hl
    cases v with
    | long n =>
      simp only at hl
      split at hl
      · cases hl
      · rename_i hn
        have hl : a.limit = .fixed n.toNat := (Res.ok.inj hl).symm
        exact ⟨n, rfl, by omega, (shape_run (lim := some n.toNat) (fun m hm => by cases hm; exact ⟨hl, by omega⟩) h).atMost⟩
    | _ => cases hl

/-- C44.  A query runs only if every `:in` variable is given a value; otherwise nothing of the store is
looked at.  (A variable that is bound by `ground` or from a cache need not be given, and with too few
inputs there is a panic instead of an error: `C44_fails`.) -/
theorem C44_given_partial (hk : k.cache = none) (hg : WhereClause.groundsAny q.clauses = false) {x : Var} (hx : x ∈ q.inVars)
    (hv : AMap.get inputs.values x = none) : (∀ r, runQuery fl k db q inputs ≠ .ok r) ∧
      ∀ fl' db', runQuery fl' k db' q inputs = runQuery fl k db q inputs := by
  have hno : ∀ a, algebrizeQuery k q inputs ≠ .ok a := by
    intro a ha
    have := (algebrize_vals hk hg ha).2.2 x hx
    rw [hv] at this; cases this
  constructor
  · intro r h
    unfold runQuery at h
    obtain ⟨a, ha, -⟩ := bind_iff.mp h
    exact hno a ha
  · intro fl' db'
    unfold runQuery
    cases ha : algebrizeQuery k q inputs with
    | ok a => exact absurd ha (hno a)
    | err e => rfl
    | panic => rfl

/-! ### Ordering -/

theorem before_long (a b : Int) : (TypedValue.long a).Before (.long b) ↔ a < b := by
  simp [TypedValue.Before, TypedValue.toSql, SqlValue.lt]
theorem before_ref (a b : Int) : (TypedValue.ref a).Before (.ref b) ↔ a < b := by
  simp [TypedValue.Before, TypedValue.toSql, SqlValue.lt]
theorem before_double (a b : Int) : (TypedValue.double a).Before (.double b) ↔ a < b := by
  simp [TypedValue.Before, TypedValue.toSql, SqlValue.lt]
theorem before_instant (a b : Int) : (TypedValue.instant a).Before (.instant b) ↔ a < b := by
  simp [TypedValue.Before, TypedValue.toSql, SqlValue.lt]
theorem before_boolean (a b : Bool) : (TypedValue.boolean a).Before (.boolean b) ↔ a = false ∧ b = true := by
  cases a <;> cases b <;> simp [TypedValue.Before, TypedValue.toSql, SqlValue.lt]
theorem before_string (a b : Text) : (TypedValue.string a).Before (.string b) ↔ a.map Char.toNat < b.map Char.toNat := by
  have : ∀ l m : List Nat, lexLt l m = true ↔ l < m := by
    intro l
    induction l with
    | nil => intro m; cases m <;> simp [lexLt]
    | cons x l ih =>
      intro m
      cases m with
      | nil => simp [lexLt]
      | cons y m => simp [lexLt, ih, List.cons_lt_cons_iff]
  simp [TypedValue.Before, TypedValue.toSql, SqlValue.lt, this]
theorem before_long_double (a b : Int) : (TypedValue.long a).Before (.double b) ↔ a * 2 ^ 1074 < b := by
  simp [TypedValue.Before, TypedValue.toSql, SqlValue.lt]

variable {L : Var → Prop} {xs : List Var}

theorem simplifyOrder_named {cc : CC} : ∀ {o : List (Bool × Var)} {p : List (Bool × Col) × List Var},
    cc.simplifyOrder o = .ok p → ∀ y ∈ p.2, ∃ d ∈ o, d.2 = y
  | [], p, h, y, hy => by
    obtain rfl := Res.ok.inj h
    cases hy
  | (d, x) :: o, p, h, y, hy => by
    rw [simplifyOrder] at h
    have hrec : ∀ {p' : List (Bool × Col) × List Var}, cc.simplifyOrder o = .ok p' → y ∈ p'.2 → ∃ d' ∈ (d, x) :: o, d'.2 = y := by
      intro p' h' hy'
      obtain ⟨d', h1, h2⟩ := simplifyOrder_named h' y hy'
      exact ⟨d', List.mem_cons_of_mem _ h1, h2⟩
    split at h
    · exact hrec h hy
    · split at h
      · cases h
      · obtain ⟨p', h1, h2⟩ := bind_iff.mp h
        obtain rfl := Res.ok.inj h2
        simp only at hy
        split at hy
        · exact hrec h1 hy
        · rcases List.mem_cons.1 hy with rfl | hy
          · exact ⟨_, List.mem_cons_self, rfl⟩
          · exact hrec h1 hy

/-- C52, for the queries treated that find rows.  The rows are those of answers in the order asked for;
ordering by a variable that is given, and so the same in all answers, does nothing.  There are as many as
the limit allows, and an answer that is left out does not come before any of them.  No row comes twice,
unless ordered by variables that are not found. -/
theorem C52_sorted_partial (ht : Treated k db L q inputs xs) (hf : q.find = .rel (xs.map .var)) {o : List (Bool × Var)}
    (ho : q.order.getD [] = o) (h : runQuery fl k db q inputs = .ok r) :
    ∃ ρs : List Assign, r = .rel xs.length (ρs.flatMap fun ρ => xs.map ρ) ∧
      (∀ ρ ∈ ρs, IsAnswer k.schema db.facts q inputs.values ρ) ∧
      ρs.Pairwise (fun ρ σ => ¬ Assign.Before o σ ρ) ∧
      (∀ n, q.limit = .fixed n → ρs.length ≤ n) ∧
      ((∀ d ∈ o, d.2 ∈ xs) → (ρs.map fun ρ => xs.map ρ).Nodup) ∧
      ∀ ρ, IsAnswer k.schema db.facts q inputs.values ρ →
        (∃ σ ∈ ρs, List.Forall₂ TypedValue.Alike (xs.map ρ) (xs.map σ) ∧ ∀ x ∈ xs, ¬ L x → ρ x = σ x) ∨
        ∃ n, q.limit = .fixed n ∧ ρs.length = n ∧ ∀ σ ∈ ρs, ¬ Assign.Before o ρ σ := by
  have hel : q.find.elements = xs.map .var := by rw [hf]; rfl
  unfold runQuery at h
  obtain ⟨a0, ha, h⟩ := bind_iff.mp h
  obtain ⟨a, al, hrun, -⟩ := algebrized fl ht.cache ht.store ht.ins (fun cc => by rw [hel]; exact deriveTypes_vars cc xs) ht.limit ht.clauses
    ht.once ht.given ht.sources ha
  rw [← hrun] at h
  unfold runAlgebrized at h
  have hfind : a.find = .rel (xs.map .var) := al.find.trans hf
  cases he : a.cc.empty with
  | true =>
    rw [he] at h
    obtain rfl := Res.ok.inj h
    refine ⟨[], by rw [hfind]; simp [QResult.empty], by simp, by simp, by simp, by simp, ?_⟩
    intro ρ hρ; exact absurd hρ (al.empty he ρ)
  | false =>
    rw [he, not_fullyUnitBound al hel ht.find] at h
    simp only [Bool.false_eq_true, if_false] at h
    obtain ⟨p, hp, h⟩ := bind_iff.mp h
    obtain ⟨rows, hrows, h⟩ := bind_iff.mp h
    have hul : q.find.isUnitLimited = false := by rw [hf]; rfl
    have hlim' : a.limit = q.limit := al.limit.2 hul
    have hlim : ∃ lim, a.limit.number = .ok lim ∧ ∀ n, lim = some n ↔ q.limit = .fixed n := by
      rw [hlim']
      cases hq : q.limit with
      | var x => exact absurd hq (ht.limit x)
      | none => exact ⟨none, rfl, by simp⟩
      | fixed n => exact ⟨some n, rfl, by simp⟩
    obtain ⟨lim, hnum, hlim⟩ := hlim
    obtain ⟨l, rfl, hraw1, hraw2, hord⟩ := rows_raw al hel he hp hrows hnum
    obtain ⟨hout, ks, new, htm, -, hnew, hcols⟩ := projectElements_spec (by rw [al.find]; exact hel) hp
    have hnamed := projectElements_named (by rw [al.find]; exact hel) hp
    obtain ⟨hsort, hleft⟩ := finishRows_sorted (distinct := isDistinct a false) (names := p.cols.map (·.2))
      (o := a.order) (lim := lim) (l := l)
    rw [hfind] at h
    simp only [project] at h
    obtain ⟨vs, hvs0, h⟩ := bind_iff.mp h
    obtain rfl := Res.ok.inj h
    have hvs := lookupRows_spec hvs0
    clear hvs0
    rw [htm] at hvs
    have hmem : ∀ r ∈ finishRows (isDistinct a false) (p.cols.map (·.2)) a.order lim l, ∃ ρ,
        IsAnswer k.schema db.facts q inputs.values ρ ∧ ∃ env, Reads a.cc env ρ ∧ r = p.cols.map fun d => d.1.eval env := by
      intro r hr
      obtain ⟨env, ρ, h1, h2, h3⟩ := hraw1 r (finishRows_mem r hr)
      exact ⟨ρ, h1, env, h2, h3⟩
    obtain ⟨ρs, hρs⟩ := exists_forall₂ hmem
    have hso : a.cc.simplifyOrder o = .ok (a.order, a.named) := by
      cases hq : q.order with
      | some o' =>
        rw [hq] at ho
        obtain rfl : o' = o := ho
        exact al.order.2 _ hq
      | none =>
        rw [hq] at ho
        obtain rfl : [] = o := ho
        rw [(al.order.1 hq).1, (al.order.1 hq).2]
        rfl
    have hbefore : ∀ {env env' : Env} {ρ σ : Assign}, Reads a.cc env ρ → Reads a.cc env' σ →
        (orderLt (p.cols.map (·.2)) a.order (p.cols.map fun d => d.1.eval env) (p.cols.map fun d => d.1.eval env') = true ↔
          Assign.Before o ρ σ) := fun h1 h2 => orderLt_before hnamed h1 h2 hso hord
    have hvals : vs = ρs.map fun ρ => xs.map ρ := by
      refine forall₂_map hvs hρs ?_
      rintro r v ρ hv ⟨hρ, env, hrd, rfl⟩
      obtain ⟨t1, t2⟩ := hcols env _ hrd
      rw [t2, lookupAll_answer hρ.proper (ht.read _ hρ) t1] at hv
      exact (Res.ok.inj hv).symm
    refine ⟨ρs, by rw [hvals]; simp [List.flatMap], ?_, ?_, ?_, ?_, ?_⟩
    · intro ρ hρ
      obtain ⟨r, -, h, -⟩ := forall₂_right hρs ρ hρ
      exact h
    · refine forall₂_pairwise hρs hsort ?_
      rintro r s ρ σ ⟨-, env, h1, rfl⟩ ⟨-, env', h2, rfl⟩ hlt hb
      rw [(hbefore h2 h1).mpr hb] at hlt
      cases hlt
    · intro n hn
      rw [← hρs.length_eq]
      obtain rfl := (hlim n).mpr hn
      exact finishRows_length
    · intro hox
      rw [← hvals]
      by_cases h1 : q.limit = .fixed 1
      · obtain rfl := (hlim 1).mpr h1
        have h2 : vs.length ≤ 1 := by
          rw [← hvs.length_eq]
          exact finishRows_length
        match vs, h2 with
        | [], _ => exact List.nodup_nil
        | [v], _ => simp
      · have hdist : isDistinct a false = true := by
          unfold isDistinct
          rw [hfind, hlim']
          obtain ⟨x, hx, -⟩ := ht.find
          have : ((xs.map Element.var).all Element.isUnit) = false := by
            rw [List.all_eq_false]
            exact ⟨.var x, List.mem_map.mpr ⟨x, hx, rfl⟩, by simp [Element.isUnit]⟩
          simp [FindSpec.elements, this, h1]
        have hn0 := hnew fun y hy => by
          obtain ⟨d, hd, rfl⟩ := simplifyOrder_named hso y hy
          exact hox d hd
        rw [hdist] at hvs hmem
        refine forall₂_nodup hvs (finishRows_distinct.imp_of_mem ?_)
        intro r r' hr hr' hne v hv hv'
        obtain ⟨ρ, hρ, env, hrd, rfl⟩ := hmem r hr
        obtain ⟨ρ', hρ', env', hrd', rfl⟩ := hmem r' hr'
        obtain ⟨t1, t2⟩ := hcols env _ hrd
        obtain ⟨t1', t2'⟩ := hcols env' _ hrd'
        rw [t2, lookupAll_answer hρ.proper (ht.read _ hρ) t1] at hv
        rw [t2', lookupAll_answer hρ'.proper (ht.read _ hρ') t1'] at hv'
        have heq : xs.map ρ = xs.map ρ' := (Res.ok.inj hv).trans (Res.ok.inj hv').symm
        rw [t2, t2', heq, hn0] at hne
        simp [rowSame_refl] at hne
    · intro ρ hρ
      obtain ⟨env, hrd, hm⟩ := hraw2 ρ hρ
      rcases hleft _ hm with ⟨s, hs, hsame⟩ | ⟨n, hn, hlen, hno⟩
      · left
        obtain ⟨σ, hσ, hans, env', hrd', rfl⟩ := forall₂_left hρs s hs
        refine ⟨σ, hσ, ?_⟩
        have hsame : rowSame (p.cols.map fun d => d.1.eval env) (p.cols.map fun d => d.1.eval env') = true := by
          rcases hsame with h | h
          · rw [h]; exact rowSame_refl _
          · exact h
        obtain ⟨t1, t2⟩ := hcols env _ hrd
        obtain ⟨t1', t2'⟩ := hcols env' _ hrd'
        rw [t2, t2'] at hsame
        rw [rowSame_append (length_rowOf t1 t1')] at hsame
        have hal : List.Forall₂ TypedValue.Alike (xs.map ρ) (xs.map σ) :=
          rowOf_same t1 t1' (by simpa using fun x _ => hρ.proper x) (by simpa using fun x _ => hans.proper x) hsame.1
        refine ⟨hal, ?_⟩
        intro x hx hLx
        have hbound : (AMap.get a.cc.vals x).isSome ∨ (AMap.get a.cc.colb x).isSome := by
          unfold projectElements at hp
          rw [al.find, hel] at hp
          obtain ⟨p1, h1, -⟩ := bind_iff.mp hp
          exact projectLoop_bound xs h1 x hx
        obtain ⟨t, htt⟩ := al.typed he x hLx hbound
        exact Alike.eq_of_type (forall₂_alike_eq hal x hx) (by rw [htt ρ hρ, htt σ hans])
      · right
        refine ⟨n, (hlim n).mp hn, by rw [← hlen]; exact hρs.length_eq.symm, ?_⟩
        intro σ hσ hb
        obtain ⟨s, hs, -, env', hrd', rfl⟩ := forall₂_right hρs σ hσ
        have := hno _ hs
        rw [(hbefore hrd hrd').mpr hb] at this
        cases this

/-- C52, for the queries treated.  Ordering by a variable that is neither given nor in a clause is
rejected. -/
theorem C52_unbound_partial (ht : Shaped k L q inputs) (hd : DbOk k.schema db)
    (hl : ∀ o, WhereClause.usesAll o q.clauses = true → SourceOk db o) (hf : q.find.elements = xs.map .var) {o : List (Bool × Var)}
    (ho : q.order = some o) {d : Bool} {x : Var} (hx : (d, x) ∈ o) (hin : x ∉ q.inVars)
    (hc : x ∉ WhereClause.varsAll q.clauses) : ∀ r, runQuery fl k db q inputs ≠ .ok r := by
  intro r h
  unfold runQuery at h
  obtain ⟨a0, ha, h⟩ := bind_iff.mp h
  obtain ⟨a, al, -⟩ := algebrized fl ht.cache hd ht.ins (fun cc => by rw [hf]; exact deriveTypes_vars cc xs) ht.limit ht.clauses
    ht.once ht.given hl ha
  have hv : AMap.get a.cc.vals x = none := by rw [al.vals x, if_neg hin]
  have hm := al.met x hin hc
  have key : ∀ {o : List (Bool × Var)} {p}, a.cc.simplifyOrder o = .ok p → (d, x) ∉ o := by
    intro o
    induction o with
    | nil => intro p _; simp
    | cons e o ih =>
      obtain ⟨d', y⟩ := e
      intro p hp hmem
      rw [simplifyOrder] at hp
      rw [List.mem_cons] at hmem
      split at hp
      · rename_i hy
        rcases hmem with e | hmem
        · cases e; rw [hv] at hy; cases hy
        · exact ih hp hmem
      · split at hp
        · cases hp
        · rename_i hy
          rcases hmem with e | hmem
          · cases e; rw [hm] at hy; exact hy rfl
          · obtain ⟨p', hp', -⟩ := bind_iff.mp hp
            exact ih hp' hmem
  exact key (al.order.2 o ho) hx

end

namespace QueryEx

/-- The long values in descending order, at most two of them; a constant to order by first does
nothing. -/
theorem C52_example : run { find [x, y] [pat x "long" (.var y)] with order := some [(false, y)], limit := .fixed 2 } [] =
      .ok (.rel 2 [.ref 21, .long 21, .ref 20, .long 1]) ∧
    run { find [x, y] [pat x "long" (.var y)] with inVars := [z], order := some [(true, z), (false, y)], limit := .fixed 2 }
      [(z, .long 5)] = .ok (.rel 2 [.ref 21, .long 21, .ref 20, .long 1]) :=
  ⟨by decide +kernel, by decide +kernel⟩

theorem C52_example_treated : Treated ⟨schema, none⟩ store (fun _ => False)
    { find [x, y] [pat x "long" (.var y)] with order := some [(false, y)], limit := .fixed 2 } (Inputs.ofValues []) [x, y] := by
  refine ⟨⟨rfl, inputs_ok AMap.wf_nil (by simp), by simp, ?_, looseOnce_false _, by simp [find]⟩, store_ok,
    by simp [find, WhereClause.usesAll, WhereClause.uses, pat], ⟨x, by simp, by simp [find]⟩, ?_⟩
  · refine .simple ?_
    simp only [find, pat, WhereClause.SimpleAll, WhereClause.Simple, and_true]
    exact patOk_known (pat_known x "long" y) (by simp [Pattern.NoKeyword, only])
  · intro ρ hρ
    have hs := hρ.sat
    simp only [find, SatAll, pat, Sat] at hs
    refine readable_patterns (s := schema) C45_example_hyps.2.1
      (ps := [{ e := .var x, a := .ident (kw "long"), v := .var y, tx := .placeholder }]) ?_ ρ ?_
    · intro v hv
      refine ⟨_, List.mem_singleton.mpr rfl, ?_⟩
      simpa [Pattern.vars, NonValue.vars, PatValue.vars] using hv
    · intro p hp
      rw [List.mem_singleton] at hp
      subst hp
      exact hs.1

/-- Limits that are inputs: a positive long is honoured, others are rejected. -/
theorem C52_example_input :
    let q := { find [x] [pat x "long" .placeholder] with inVars := [z], limit := .var z }
    run q [(z, .long 2)] = .ok (.rel 1 [.ref 20, .ref 21]) ∧ run q [(z, .long 0)] = .err .invalidLimit ∧
      run q [(z, .long (-1))] = .err .invalidLimit ∧ run q [] = .err .unboundVariables ∧
      WhereClause.groundsAny q.clauses = false ∧ q.find.isUnitLimited = false :=
  ⟨by decide +kernel, by decide +kernel, by decide +kernel, by decide +kernel, by decide +kernel, by decide +kernel⟩

/-- Ordering by a variable that is not bound. -/
theorem C52_example_unbound : run { find [x] [pat x "long" .placeholder] with order := some [(true, y)] } [] =
    .err .unboundVariable := by decide +kernel

/-- C52: a query for a scalar or a tuple takes any limit. -/
theorem C52_fails_unit :
    let q : FindQuery := { find := .scalar (.var x), clauses := [pat x "long" .placeholder], inVars := [z], limit := .var z }
    run q [(z, .long (-5))] = .ok (.scalar (some (.ref 20))) ∧ run q [(z, .string "s".toList)] = .ok (.scalar none) := by
  decide +kernel

/-- C52: ordering by a number that may be a long or a double is an error: the statement orders by the
column of the tag, which is not selected because there is one tag for both. -/
theorem C52_fails_number :
    let cs := [open' x w y, .pred (some .lt) [.var y, .int 2]]
    run { find [x, y] cs with order := some [(true, y)] } [] = .err .other ∧
      run (find [x, y] cs) [] = .ok (.rel 2 [.ref 20, .long 1, .ref 21, .double (2 ^ 1074), .ref 22, .long 1]) := by
  decide +kernel

/-- C45 and C48: a comparison makes a number of a variable whose type is not known, but nothing is asked of
the type of the values: entity 20 has `:f/knows` 21, and the reference 21 is found as the long 21. -/
theorem C45_fails_compare : run (find [y] [.pattern { e := .entid 20, a := .var w, v := .var y, tx := .placeholder },
      .pred (some .gt) [.var y, .int 20], .pred (some .lt) [.var y, .int 30]]) [] = .ok (.rel 1 [.long 21]) ∧ ∀ d ∈ store.rows, d.e = 20 → d.v ≠ .long 21 := by
  decide +kernel

/-- C51: a query for a tuple, and its conversions. -/
theorem C51_example :
    let q : FindQuery := { find := .tuple [.var x, .var y], clauses := [pat x "long" (.var y)] }
    run q [] = .ok (.tuple (some [.ref 20, .long 1])) ∧
      (run q []).bind (intoTuple (some 2) q.find) = .ok (some [.ref 20, .long 1]) ∧
      (run q []).bind (intoTuple (some 3) q.find) = .err .other := by
  decide +kernel

end QueryEx
end Mentat
