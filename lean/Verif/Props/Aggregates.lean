import Verif.Proofs.QueryAggregate
import Verif.Props.QueryShape
/-
C53 and C68: aggregates.
-/
namespace Mentat
open CC

/-! ### C53: the types -/

/-- C53.  What may be counted: anything. -/
theorem C53_count (ts : TypeSet) (h : ∃ t, ts t = true) : AggOp.count.resultType ts = .ok .long := by
  unfold AggOp.resultType
  rw [isEmpty_false.mpr h]
  rfl

/-- C53.  What may be summed or averaged: numbers only.  The sum is declared to be a double unless all are
longs, and an average always is.  Partial: the result is not always of the declared type, see `C53_fails_declared`. -/
theorem C53_sum_avg_partial (op : AggOp) (hop : op = .sum ∨ op = .avg) (ts : TypeSet) (r : ValueType) : op.resultType ts = .ok r ↔
    (∃ t, ts t = true) ∧ (∀ t, ts t = true → t = .long ∨ t = .double) ∧
      r = if op = .sum ∧ ts .double = false then .long else .double := by
  unfold AggOp.resultType
  cases he : ts.isEmpty with
  | true =>
    simp only [if_true, reduceCtorEq, false_iff]
    rintro ⟨h, -⟩
    rw [isEmpty_false.mpr h] at he; cases he
  | false =>
    rw [← isEmpty_false, he, ← onlyNumeric_iff]
    simp only [Bool.false_eq_true, if_false, true_and]
    cases hn : ts.onlyNumeric <;> cases hd : ts .double <;> rcases hop with rfl | rfl <;> simp [eq_comm]

/-- The types with an order. -/
def ValueType.Ordered (t : ValueType) : Prop := t = .double ∨ t = .long ∨ t = .instant ∨ t = .boolean ∨ t = .string

/-- C53.  Of what there is a greatest and a least: values of one ordered type, declared to be of it, or
numbers, declared to be doubles.  Partial: the result is not always of the declared type, see `C53_fails_declared`. -/
theorem C53_max_min_partial (op : AggOp) (hop : op = .max ∨ op = .min) (ts : TypeSet) (r : ValueType) : op.resultType ts = .ok r ↔
    (r.Ordered ∧ ∀ u, ts u = true ↔ u = r) ∨ (ts .long = true ∧ ts .double = true ∧ (∀ t, ts t = true → t = .long ∨ t = .double) ∧ r = .double) := by
  have e : op.resultType ts = if ts.isEmpty then .err .other else if ts.isUnit then
      (match ts.exemplar with
      | some .double => .ok .double
      | some .long => .ok .long
      | some .instant => .ok .instant
      | some .boolean => .ok .boolean
      | some .string => .ok .string
      | some _ => .err .other
      | none => .panic)
    else if ts.onlyNumeric then .ok (if ts .double then .double else .long)
    else .err .other := by
    rcases hop with rfl | rfl <;> rfl
  rw [e]
  cases he : ts.isEmpty with
  | true =>
    simp only [if_true, reduceCtorEq, false_iff]
    have hno : ∀ t, ts t = false := by
      intro t
      cases ht : ts t with
      | false => rfl
      | true => rw [isEmpty_false.mpr ⟨t, ht⟩] at he; cases he
    rintro (⟨-, h⟩ | ⟨h, -⟩)
    · have := (h r).mpr rfl; rw [hno] at this; cases this
    · rw [hno] at h; cases h
  | false =>
    simp only [Bool.false_eq_true, if_false]
    cases hu : ts.isUnit with
    | true =>
      obtain ⟨t, h1, h2⟩ := exemplar_unit hu
      simp only [if_true, h1]
      have hr : (∀ u, ts u = true ↔ u = r) ↔ r = t := by
        constructor
        · intro h; exact (h2 r).mp ((h r).mpr rfl)
        · rintro rfl; exact h2
      rw [hr]
      have hno : ¬ (ts .long = true ∧ ts .double = true ∧ (∀ t, ts t = true → t = .long ∨ t = .double) ∧ r = .double) := by
        rintro ⟨a, b, -⟩
        rw [h2] at a b
        rw [← a] at b; cases b
      rw [or_iff_left hno]
      clear hr hno
      cases t <;> cases r <;> simp [ValueType.Ordered]
    | false =>
      simp only [Bool.false_eq_true, if_false]
      have hno : ¬ (r.Ordered ∧ ∀ u, ts u = true ↔ u = r) := by
        rintro ⟨-, h⟩
        rw [isUnit_of h] at hu; cases hu
      rw [or_iff_right hno]
      cases hn : ts.onlyNumeric with
      | false =>
        simp only [Bool.false_eq_true, if_false, reduceCtorEq, false_iff]
        rintro ⟨-, -, h, -⟩
        rw [onlyNumeric_iff.mpr h] at hn; cases hn
      | true =>
        have hnum := onlyNumeric_iff.mp hn
        simp only [if_true, Res.ok.injEq]
        have hl : ts .long = true := by
          cases hl : ts .long with
          | true => rfl
          | false =>
            exfalso
            obtain ⟨t, ht⟩ := isEmpty_false.mp he
            have hd : ts .double = true := by
              rcases hnum t ht with rfl | rfl
              · rw [hl] at ht; cases ht
              · exact ht
            have := isUnit_of (ts := ts) (t := .double) fun u => by
              constructor
              · intro hu'
                rcases hnum u hu' with rfl | rfl
                · rw [hl] at hu'; cases hu'
                · rfl
              · rintro rfl; exact hd
            rw [this] at hu; cases hu
        have hd : ts .double = true := by
          cases hd : ts .double with
          | true => rfl
          | false =>
            exfalso
            have := isUnit_of (ts := ts) (t := .long) fun u => by
              constructor
              · intro hu'
                rcases hnum u hu' with rfl | rfl
                · rfl
                · rw [hd] at hu'; cases hu'
              · rintro rfl; exact hl
            rw [this] at hu; cases hu
        simp only [hd, hl, if_true, true_and]
        constructor
        · rintro rfl; exact ⟨hnum, rfl⟩
        · rintro ⟨-, rfl⟩; rfl

/-- C53.  Of no possible type, nothing is computed; and the check never panics. -/
theorem C53_total (op : AggOp) (ts : TypeSet) : op.resultType ts ≠ .panic ∧ ((∀ t, ts t = false) → op.resultType ts = .err .other) := by
  constructor
  · unfold AggOp.resultType
    split
    · simp
    · cases hu : ts.isUnit with
      | true =>
        obtain ⟨t, h1, -⟩ := exemplar_unit hu
        rw [h1]
        cases op <;> cases t <;> simp <;> split <;> simp
      | false => cases op <;> simp <;> split <;> simp
  · intro h
    unfold AggOp.resultType
    cases he : ts.isEmpty with
    | true => rfl
    | false =>
      obtain ⟨t, ht⟩ := isEmpty_false.mp he
      rw [h t] at ht; cases ht

/-! ### C68: what is computed -/

/-- What is assumed of an aggregating query: it finds variables and aggregates of variables, at least one
of them, none of a variable that is given; it does not ask for an order; the types of the variables found,
aggregated and mentioned by `:with` are known; the answers are values that can be read back. -/
structure Gathered (k : Known) (db : Tables) (L : Var → Prop) (q : FindQuery) (inputs : Inputs) (fs : List Sought) : Prop
    extends Shaped k L q inputs where
  store : DbOk k.schema db
  sources : ∀ o, WhereClause.usesAll o q.clauses = true → SourceOk db o
  free : ∀ f ∈ fs, f.var ∉ q.inVars
  agg : ∃ o, .inr o ∈ fs
  order : q.order = none
  types : ∀ x ∈ fs.map Sought.var ++ q.withVars, ¬ L x
  read : ∀ ρ, IsAnswer k.schema db.facts q inputs.values ρ → ∀ f ∈ fs, (ρ f.var).Readable

section
variable {k : Known} {L : Var → Prop} {db : Tables} {q : FindQuery} {inputs : Inputs} {fs : List Sought} {fl : Floats} {r : QResult}

theorem deriveTypes_sought : ∀ (fs : List Sought) (cc : CC), cc.deriveTypes (fs.map Sought.element) = cc
  | [], _ => rfl
  | .inl _ :: fs, cc => deriveTypes_sought fs cc
  | .inr _ :: fs, cc => deriveTypes_sought fs cc

theorem gathered_bound (ht : Gathered k db L q inputs fs) (hel : q.find.elements = fs.map Sought.element) {a : Algebraic}
    (al : Algebrized k db L q inputs a) : a.fullyUnitBound = false ∧ ∀ f ∈ fs, AMap.get a.cc.vals f.var = none := by
  constructor
  · obtain ⟨o, ho⟩ := ht.agg
    unfold Algebraic.fullyUnitBound
    rw [al.find, hel, Bool.and_eq_false_iff]
    right
    rw [List.all_eq_false]
    exact ⟨_, List.mem_map.mpr ⟨_, ho, rfl⟩, by simp [Sought.element]⟩
  · intro f hf
    rw [al.vals, if_neg (ht.free f hf)]

/-- C68.  The rows of an aggregating query tabulate its answers: there is one for each group of answers
having the same values for the variables found, giving these values and the aggregates of the group, which
consists of the answers that differ in some variable found, aggregated or mentioned by `:with`.  Aggregating
nothing gives at most one row, and it only if there is nothing to group by. -/
theorem C68_rows_partial (ht : Gathered k db L q inputs fs) (hf : q.find = .rel (fs.map Sought.element)) (hlim : q.limit = .none)
    (hfl : ∀ l, l ≠ [] → fl.avg l ≠ .null) (h : runQuery fl k db q inputs = .ok r) :
    ∃ ds γs rows, r = .rel fs.length rows.flatten ∧
      Tabulates (IsAnswer k.schema db.facts q inputs.values) fs (fs.map Sought.var ++ q.withVars) ds γs rows := by
  have hel : q.find.elements = fs.map Sought.element := by rw [hf]; rfl
  unfold runQuery at h
  obtain ⟨a0, ha, h⟩ := bind_iff.mp h
  obtain ⟨a, al, hrun, -⟩ := algebrized fl ht.cache ht.store ht.ins (fun cc => by rw [hel]; exact deriveTypes_sought fs cc) ht.limit ht.clauses
    ht.once ht.given ht.sources ha
  rw [← hrun] at h
  unfold runAlgebrized at h
  have hfind : a.find = .rel (fs.map Sought.element) := al.find.trans hf
  obtain ⟨hfu, hv⟩ := gathered_bound ht hel al
  cases he : a.cc.empty with
  | true =>
    rw [he] at h
    obtain rfl := Res.ok.inj h
    exact ⟨[], [], [], by rw [hfind]; simp [QResult.empty], ⟨by simp, by simp, fun ρ hρ => absurd hρ (al.empty he ρ), .nil, by simp,
      by simp, by simp⟩⟩
  | false =>
    rw [he, hfu] at h
    simp only [Bool.false_eq_true, if_false] at h
    obtain ⟨p, hp, h⟩ := bind_iff.mp h
    obtain ⟨rows, hrows, h⟩ := bind_iff.mp h
    have hul : q.find.isUnitLimited = false := by rw [hf]; rfl
    have hlim' : a.limit = .none := (al.limit.2 hul).trans hlim
    obtain ⟨ks, hag⟩ := projectElements_aggregating (by rw [al.find]; exact hel) hv (al.order.1 ht.order).2 ht.agg hp
    rw [al.withs] at hag
    rw [hfind] at h
    simp only [project] at h
    obtain ⟨vs, hvs, h⟩ := bind_iff.mp h
    obtain rfl := Res.ok.inj h
    obtain ⟨ds, γs, ht'⟩ := aggregate_answers al he hag hv ht.agg ht.order ht.types ht.read hfl hrows (lim := none) (by rw [hlim']; rfl)
      (.inl rfl) hvs
    exact ⟨ds, γs, vs, by simp, ht'⟩

/-- C68.  A query for one aggregate gives the aggregate of the answers that differ in the variable
aggregated or one mentioned by `:with`; of none it gives nothing, or the aggregate of no values. -/
theorem C68_scalar_partial {op : AggOp} {x : Var} (ht : Gathered k db L q inputs [.inr (op, x)])
    (hf : q.find = .scalar (.aggregate (some op) [.var x])) (hfl : ∀ l, l ≠ [] → fl.avg l ≠ .null)
    (h : runQuery fl k db q inputs = .ok r) :
    ∃ (ds : List Assign) (v : Option TypedValue), r = .scalar v ∧
      (∀ d ∈ ds, IsAnswer k.schema db.facts q inputs.values d) ∧
      (ds.Pairwise fun d d' => ¬ Assign.Agree (x :: q.withVars) d d') ∧
      (∀ ρ, IsAnswer k.schema db.facts q inputs.values ρ → ∃ d ∈ ds, Assign.Agree (x :: q.withVars) ρ d) ∧
      (∀ w, v = some w → op.Gives (ds.map (· x)) w) ∧ (ds ≠ [] → v ≠ none) := by
  have hel : q.find.elements = [Sum.inr (op, x)].map Sought.element := by rw [hf]; rfl
  unfold runQuery at h
  obtain ⟨a0, ha, h⟩ := bind_iff.mp h
  obtain ⟨a, al, hrun, -⟩ := algebrized fl ht.cache ht.store ht.ins (fun cc => by rw [hel]; exact deriveTypes_sought _ cc) ht.limit ht.clauses
    ht.once ht.given ht.sources ha
  rw [← hrun] at h
  unfold runAlgebrized at h
  have hfind : a.find = .scalar (.aggregate (some op) [.var x]) := al.find.trans hf
  obtain ⟨hfu, hv⟩ := gathered_bound ht hel al
  cases he : a.cc.empty with
  | true =>
    rw [he] at h
    obtain rfl := Res.ok.inj h
    exact ⟨[], none, by rw [hfind]; rfl, by simp, by simp, fun ρ hρ => absurd hρ (al.empty he ρ), by simp, by simp⟩
  | false =>
    rw [he, hfu] at h
    simp only [Bool.false_eq_true, if_false] at h
    obtain ⟨p, hp, h⟩ := bind_iff.mp h
    obtain ⟨rows, hrows, h⟩ := bind_iff.mp h
    have hul : q.find.isUnitLimited = true := by rw [hf]; rfl
    have hlim' : a.limit = .fixed 1 := al.limit.1 hul
    obtain ⟨ks, hag⟩ := projectElements_aggregating (by rw [al.find]; exact hel) hv (al.order.1 ht.order).2 ht.agg hp
    rw [al.withs] at hag
    have hlen : rows.length ≤ 1 := by
      have hr := hrows
      unfold selectRows at hr
      rw [hag.outer, hlim'] at hr
      obtain ⟨lim, e, hr⟩ := bind_iff.mp hr
      obtain rfl := Res.ok.inj e
      obtain ⟨s, -, hr⟩ := bind_iff.mp hr
      obtain ⟨i, -, hr⟩ := bind_iff.mp hr
      unfold aggregateRows at hr
      simp only at hr
      split at hr
      · cases hr
      · obtain ⟨out, -, hr⟩ := bind_iff.mp hr
        obtain rfl := Res.ok.inj hr
        refine Nat.le_trans (List.length_filter_le _ _) ?_
        unfold finishRows
        exact List.length_take_le _ _
    have hk : ∃ t, p.templates = [t] := by
      have := hag.kinds.length_eq
      rw [hag.tmpl]
      match ks, this with
      | [k], _ => exact ⟨_, rfl⟩
    obtain ⟨t, htm⟩ := hk
    rw [hfind] at h
    simp only [project, htm, List.getLast?_singleton] at h
    have key : ∀ {vs}, lookupRows p.templates rows = .ok vs → ∃ ds γs, Tabulates (IsAnswer k.schema db.facts q inputs.values)
        [.inr (op, x)] ([.inr (op, x)].map Sought.var ++ q.withVars) ds γs vs := fun hvs =>
      aggregate_answers al he hag hv ht.agg ht.order ht.types ht.read hfl hrows (lim := some 1) (by rw [hlim']; rfl)
        (.inr ⟨rfl, rfl⟩) hvs
    match rows, hlen with
    | [], _ =>
      obtain rfl := Res.ok.inj h
      obtain ⟨ds, γs, ht'⟩ := key (vs := []) rfl
      refine ⟨ds, none, rfl, ht'.sound, ht'.once, ht'.all, by simp, ?_⟩
      intro hne
      obtain ⟨d, hd⟩ := List.exists_mem_of_ne_nil ds hne
      obtain ⟨γ, hγ, -⟩ := ht'.each d hd
      have := ht'.rows
      cases this
      cases hγ
    | [row], _ =>
      simp only at h
      obtain ⟨v, hv', h⟩ := bind_iff.mp h
      obtain rfl := Res.ok.inj h
      obtain ⟨ds, γs, ht'⟩ := key (vs := [[v]]) (by rw [htm]; simp [lookupRows, lookupAll, hv', Res.bind])
      refine ⟨ds, some v, rfl, ht'.sound, ht'.once, ht'.all, ?_, by simp⟩
      rintro w ⟨⟩
      have hrw := ht'.rows
      cases hrw with
      | cons h1 _ =>
      cases h1 with
      | cons h1 _ =>
        have h1 : op.Gives _ v := h1
        rwa [List.filter_eq_self.mpr (by simp [Assign.Agree, Sought.groups])] at h1

/-- C68.  Without `:with`, counting counts the values: the distinct ones the variable takes. -/
theorem C68_count_partial {x : Var} (ht : Gathered k db L q inputs [.inr (.count, x)])
    (hf : q.find = .scalar (.aggregate (some .count) [.var x])) (hw : q.withVars = []) (hfl : ∀ l, l ≠ [] → fl.avg l ≠ .null)
    (h : runQuery fl k db q inputs = .ok r) :
    ∃ vals : List TypedValue, vals.Nodup ∧ (∀ v, v ∈ vals ↔ ∃ ρ, IsAnswer k.schema db.facts q inputs.values ρ ∧ ρ x = v) ∧
      (r = .scalar (some (.long vals.length)) ∨ vals = [] ∧ r = .scalar none) := by
  obtain ⟨ds, v, hr, h1, h2, h3, h4, h5⟩ := C68_scalar_partial ht hf hfl h
  rw [hw] at h2 h3
  refine ⟨ds.map (· x), ?_, ?_, ?_⟩
  · rw [List.Nodup, List.pairwise_map]
    exact h2.imp fun hne e => hne (by intro y hy; rw [List.mem_singleton] at hy; rw [hy]; exact e)
  · intro v
    rw [List.mem_map]
    constructor
    · rintro ⟨d, hd, rfl⟩; exact ⟨d, h1 d hd, rfl⟩
    · rintro ⟨ρ, hρ, rfl⟩
      obtain ⟨d, hd, hag⟩ := h3 ρ hρ
      exact ⟨d, hd, (hag x (by simp)).symm⟩
  · cases v with
    | none =>
      right
      refine ⟨?_, hr⟩
      have : ds = [] := Decidable.byContradiction fun hne => h5 hne rfl
      rw [this]; rfl
    | some w =>
      left
      have hw : w = .long _ := h4 w rfl
      rw [hr, hw]

end

namespace QueryEx

/-- Some floating-point arithmetic. -/
def floats1 : Floats := ⟨fun _ => .real 0, fun _ => .real 0⟩
def run1 (q : FindQuery) (values : AMap Var TypedValue) : Res QResult :=
  runQuery floats1 ⟨schema, none⟩ store q (Inputs.ofValues values)

def agg (op : AggOp) (x : Var) : Element := .aggregate (some op) [.var x]

/-- The entities by their `:f/long`, counted; how many there are, the greatest and the sum of the distinct
longs, and the sum of all of them. -/
theorem C68_example :
    run1 { find := .rel [.var y, agg .count x], clauses := [pat x "long" (.var y)] } [] = .ok (.rel 2 [.long 1, .long 2, .long 21, .long 1]) ∧
    run1 { find := .scalar (agg .count x), clauses := [pat x "long" (.var y)] } [] = .ok (.scalar (some (.long 3))) ∧
    run1 { find := .scalar (agg .max y), clauses := [pat x "long" (.var y)] } [] = .ok (.scalar (some (.long 21))) ∧
    run1 { find := .scalar (agg .sum y), clauses := [pat x "long" (.var y)] } [] = .ok (.scalar (some (.long 22))) ∧
    run1 { find := .scalar (agg .sum y), withVars := [x], clauses := [pat x "long" (.var y)] } [] = .ok (.scalar (some (.long 23))) := by
  decide +kernel

theorem C68_example_gathered : Gathered ⟨schema, none⟩ store (fun _ => False)
    { find := .rel [.var y, agg .count x], clauses := [pat x "long" (.var y)] } (Inputs.ofValues []) [.inl y, .inr (.count, x)] := by
  refine ⟨⟨rfl, inputs_ok AMap.wf_nil (by simp), by simp, ?_, looseOnce_false _, by simp⟩, store_ok,
    by simp [WhereClause.usesAll, WhereClause.uses, pat], by simp, ⟨_, by simp; rfl⟩, rfl, fun _ _ h => h, ?_⟩
  · refine .simple ?_
    simp only [pat, WhereClause.SimpleAll, WhereClause.Simple, and_true]
    exact patOk_known (pat_known x "long" y) (by simp [Pattern.NoKeyword, only])
  · intro ρ hρ f hf
    have hs := hρ.sat
    simp only [SatAll, pat, Sat] at hs
    refine readable_patterns (s := schema) C45_example_hyps.2.1
      (ps := [{ e := .var x, a := .ident (kw "long"), v := .var y, tx := .placeholder }]) (xs := [x, y]) ?_ ρ ?_ f.var ?_
    · intro v hv
      refine ⟨_, List.mem_singleton.mpr rfl, ?_⟩
      simpa [Pattern.vars, NonValue.vars, PatValue.vars] using hv
    · intro p hp
      rw [List.mem_singleton] at hp
      subst hp
      exact hs.1
    · simp only [List.mem_cons, List.not_mem_nil, or_false] at hf
      rcases hf with rfl | rfl <;> simp [Sought.var]

/-- C53: the declared type is not that of the result.  The least of numbers that may be longs or doubles is
declared a double, and the average of a long that is given too, but a long is read. -/
theorem C53_fails_declared :
    run1 { find := .scalar (agg .min y), clauses := [open' x w y, .pred (some .lt) [.var y, .int 5]] } [] = .ok (.scalar (some (.long 1))) ∧
    AggOp.min.resultType TypeSet.numeric = .ok .double ∧
    run1 { find := .scalar (agg .avg z), withVars := [x], inVars := [z], clauses := [pat x "long" .placeholder] } [(z, .long 5)] =
      .ok (.scalar (some (.long 5))) ∧
    AggOp.avg.resultType (TypeSet.one .long) = .ok .double := by
  decide +kernel

/-- C68: the sum of no numbers is neither 0 nor left out as the greatest and the average of none are: it is an
error.  The count of none is 0, unless it is clear that there are none; then there is no count. -/
theorem C68_fails_none :
    let q := fun op => { find := .scalar (agg op y), clauses := [pat x "long" (.var y), .pred (some .gt) [.var y, .int 100]] }
    run1 (q .sum) [] = .err .badSqlValuePair ∧ run1 (q .max) [] = .ok (.scalar none) ∧ run1 (q .avg) [] = .ok (.scalar none) ∧
    run1 (q .count) [] = .ok (.scalar (some (.long 0))) ∧
    run1 { find := .scalar (agg .count y), clauses := [pat x "nonsense" (.var y)] } [] = .ok (.scalar none) := by
  decide +kernel

/-- C68: the greatest value of a variable that is given is not aggregated: there is a row for each answer,
rather than one. -/
theorem C68_fails_given :
    run1 { find := .rel [agg .max z], withVars := [x], inVars := [z], clauses := [pat x "long" .placeholder] } [(z, .long 5)] =
      .ok (.rel 1 [.long 5, .long 5, .long 5]) ∧
    run1 { find := .rel [agg .count z], withVars := [x], inVars := [z], clauses := [pat x "long" .placeholder] } [(z, .long 5)] =
      .ok (.rel 1 [.long 3]) := by
  decide +kernel

/-- C53: where the type is narrowed by a comparison only, the greatest value may be one that is not a number,
and is then an error (see `C45_fails_compare`). -/
theorem C53_fails_compare :
    run1 { find := .scalar (agg .max y), clauses := [open' x w y, .pred (some .gt) [.var y, .int 1]] } [] = .err .badSqlValuePair := by
  decide +kernel

/-- C53: what each aggregate accepts, of a sample of types. -/
theorem C53_example : AggOp.sum.resultType (TypeSet.one .long) = .ok .long ∧ AggOp.sum.resultType (TypeSet.one .string) = .err .other ∧
    AggOp.max.resultType (TypeSet.one .string) = .ok .string ∧ AggOp.max.resultType (TypeSet.one .ref) = .err .other ∧
    AggOp.count.resultType (TypeSet.one .ref) = .ok .long := by
  decide +kernel

end QueryEx
end Mentat
