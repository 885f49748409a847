import Verif.Proofs.QueryOrder
/-
Aggregates: the columns of the inner and the outer statement, the groups, and what is computed of them.
-/
namespace Mentat
open CC

/-- What a query finds: a variable, or an aggregate of one. -/
abbrev Sought := Var ⊕ AggOp × Var

def Sought.element : Sought → Element
  | .inl g => .var g
  | .inr (op, x) => .aggregate (some op) [.var x]

def Sought.var : Sought → Var
  | .inl g => g
  | .inr (_, x) => x

/-- The variables by which the answers are grouped. -/
def Sought.groups (fs : List Sought) : List Var := fs.filterMap Sum.getLeft?

/-- The result of an aggregate: the number of values; the sum, if they are longs; one of the values that
is not less, or not greater, than any other. -/
def AggOp.Gives (op : AggOp) (vals : List TypedValue) (v : TypedValue) : Prop :=
  match op with
  | .count => v = .long vals.length
  | .sum => ∀ ns : List Int, vals = ns.map .long → v = .long ns.sum
  | .avg => True
  | .max => v ∈ vals ∧ ∀ w ∈ vals, ¬ v.Before w
  | .min => v ∈ vals ∧ ∀ w ∈ vals, ¬ w.Before v

namespace CC

theorem pickLeast_spec {lt : SqlValue → SqlValue → Bool} (ha : ∀ v w, lt v w = true → lt w v = false)
    (hn : ∀ v w u, lt v w = false → lt w u = false → lt v u = false) : ∀ {l : List SqlValue},
    (l ≠ [] → ∃ v, pickLeast lt l = some v) ∧ ∀ v, pickLeast lt l = some v → v ∈ l ∧ ∀ u ∈ l, lt u v = false
  | [] => by simp [pickLeast]
  | v :: r => by
    obtain ⟨h1, h2⟩ := pickLeast_spec ha hn (l := r)
    have hirr : ∀ v, lt v v = false := fun v => by
      cases h : lt v v with
      | false => rfl
      | true => rw [ha v v h] at h; cases h
    simp only [pickLeast]
    cases hr : pickLeast lt r with
    | none =>
      have : r = [] := Decidable.byContradiction fun h => by
        obtain ⟨v, hv⟩ := h1 h
        rw [hr] at hv; cases hv
      subst this
      refine ⟨fun _ => ⟨v, rfl⟩, ?_⟩
      rintro u ⟨⟩
      simp [hirr]
    | some w =>
      obtain ⟨h3, h4⟩ := h2 w hr
      simp only
      split
      · rename_i hlt
        refine ⟨fun _ => ⟨w, rfl⟩, ?_⟩
        rintro u ⟨⟩
        refine ⟨by simp [h3], ?_⟩
        intro u hu
        rw [List.mem_cons] at hu
        rcases hu with rfl | hu
        · exact ha _ _ hlt
        · exact h4 u hu
      · rename_i hlt
        rw [Bool.not_eq_true] at hlt
        refine ⟨fun _ => ⟨v, rfl⟩, ?_⟩
        rintro u ⟨⟩
        refine ⟨by simp, ?_⟩
        intro u hu
        rw [List.mem_cons] at hu
        rcases hu with rfl | hu
        · exact hirr _
        · exact hn _ _ _ (h4 u hu) hlt

theorem onlyNumeric_iff {ts : TypeSet} : ts.onlyNumeric = true ↔ ∀ t, ts t = true → t = .long ∨ t = .double := by
  simp only [TypeSet.onlyNumeric, TypeSet.subset, List.all_eq_true, Bool.or_eq_true, Bool.not_eq_true', TypeSet.numeric,
    decide_eq_true_eq]
  constructor
  · intro h t ht
    have := h t (ValueType.mem_all t)
    rw [ht] at this
    simpa using this
  · intro h t _
    cases ht : ts t with
    | false => exact .inl rfl
    | true => exact .inr (h t ht)

theorem isEmpty_false {ts : TypeSet} : ts.isEmpty = false ↔ ∃ t, ts t = true := by
  unfold TypeSet.isEmpty
  cases hl : ts.list with
  | nil =>
    simp only [List.isEmpty_nil, Bool.true_eq_false, false_iff, not_exists]
    intro t ht
    have := mem_list.mpr ht
    rw [hl] at this; cases this
  | cons t l =>
    simp only [List.isEmpty_cons, true_iff]
    exact ⟨t, mem_list.mp (by rw [hl]; simp)⟩

theorem exemplar_unit {ts : TypeSet} (h : ts.isUnit = true) : ∃ t, ts.exemplar = some t ∧ ∀ u, ts u = true ↔ u = t := by
  unfold TypeSet.isUnit at h
  unfold TypeSet.exemplar
  match hl : ts.list with
  | [] => rw [hl] at h; simp at h
  | [t] =>
    refine ⟨t, rfl, fun u => ?_⟩
    rw [← mem_list, hl, List.mem_singleton]
  | _ :: _ :: _ => rw [hl] at h; simp at h

theorem isUnit_of {ts : TypeSet} {t : ValueType} (h : ∀ u, ts u = true ↔ u = t) : ts.isUnit = true := by
  have : ts = TypeSet.one t := by
    funext u
    have := h u
    unfold TypeSet.one
    cases hu : ts u with
    | true => simp [this.mp hu]
    | false =>
      rw [hu] at this
      simp only [Bool.false_eq_true, false_iff] at this
      simp [this]
  subst this
  unfold TypeSet.isUnit
  cases t <;> decide

/-- The tag of the type of the result is that of the type of each value, where a value is the result. -/
theorem resultType_tag {op : AggOp} {ts : TypeSet} {t u : ValueType} (h : op.resultType ts = .ok t) (hop : op = .max ∨ op = .min)
    (hu : ts u = true) : t.tag = u.tag := by
  unfold AggOp.resultType at h
  split at h
  · cases h
  have h : (if ts.isUnit then
      match ts.exemplar with
      | some .double => .ok .double
      | some .long => .ok .long
      | some .instant => .ok .instant
      | some .boolean => .ok .boolean
      | some .string => .ok .string
      | some _ => .err .other
      | none => .panic
    else if ts.onlyNumeric then .ok (if ts .double then .double else .long)
    else .err .other : Res ValueType) = .ok t := by
    rcases hop with rfl | rfl <;> exact h
  split at h
  · rename_i hun
    obtain ⟨t', h1, h2⟩ := exemplar_unit hun
    rw [h1] at h
    have := (h2 u).mp hu
    subst this
    cases u <;> first | (cases h; rfl) | cases h
  · split at h
    · rename_i hnum
      obtain rfl := Res.ok.inj h
      rcases onlyNumeric_iff.mp hnum u hu with rfl | rfl <;> split <;> rfl
    · cases h

theorem nonNull_toSql (vals : List TypedValue) : nonNull (vals.map fun v => v.toSql.1) = vals.map fun v => v.toSql.1 := by
  unfold nonNull
  rw [List.filter_eq_self]
  intro v hv
  rw [List.mem_map] at hv
  obtain ⟨w, -, rfl⟩ := hv
  simp [toSql_ne_null]

theorem allIntegers_longs (ns : List Int) : allIntegers ((ns.map TypedValue.long).map fun v => v.toSql.1) = some ns := by
  induction ns with
  | nil => rfl
  | cons n ns ih =>
    simp only [List.map_cons]
    show (allIntegers _).map _ = _
    rw [ih]; rfl

theorem fromSql_null (t : Nat) : fromSql .null t = .err .badSqlValuePair := by
  unfold fromSql
  split <;> simp_all

theorem picks {lt : SqlValue → SqlValue → Bool} (ha : ∀ v w, lt v w = true → lt w v = false)
    (hn : ∀ v w u, lt v w = false → lt w u = false → lt v u = false) {vals : List TypedValue} {v : TypedValue} {tag : Nat}
    (hp : ∀ v ∈ vals, v.Proper) (hr : ∀ v ∈ vals, v.Readable) (ht : ∀ v ∈ vals, v.toSql.2 = tag)
    (h : fromSql ((pickLeast lt (vals.map fun v => v.toSql.1)).getD .null) tag = .ok v) :
    v ∈ vals ∧ ∀ w ∈ vals, lt w.toSql.1 v.toSql.1 = false := by
  obtain ⟨h1, h2⟩ := pickLeast_spec ha hn (l := vals.map fun v => v.toSql.1)
  cases hl : pickLeast lt (vals.map fun v => v.toSql.1) with
  | none => rw [hl, Option.getD_none, fromSql_null] at h; cases h
  | some s =>
    obtain ⟨hm, hs⟩ := h2 s hl
    rw [List.mem_map] at hm
    obtain ⟨w, hw, rfl⟩ := hm
    rw [hl, Option.getD_some, ← ht w hw, (C01_round_trip_partial (hp w hw)).mpr (hr w hw)] at h
    obtain rfl := Res.ok.inj h
    exact ⟨hw, fun u hu => hs _ (List.mem_map.mpr ⟨u, hu, rfl⟩)⟩

/-- What an aggregate gives for stored values, read back. -/
theorem eval_gives {fl : Floats} {op : AggOp} {ts : TypeSet} {t : ValueType} {vals : List TypedValue} {w : SqlValue}
    {v : TypedValue} (he : op.eval fl (vals.map fun v => v.toSql.1) = .ok w) (hts : op.resultType ts = .ok t)
    (ht : ∀ v ∈ vals, ts v.valueType = true) (hp : ∀ v ∈ vals, v.Proper) (hr : ∀ v ∈ vals, v.Readable)
    (h : fromSql w t.tag = .ok v) : op.Gives vals v := by
  unfold AggOp.eval at he
  simp only [nonNull_toSql] at he
  cases op with
  | count =>
    obtain rfl := Res.ok.inj he
    unfold AggOp.resultType at hts
    split at hts
    · cases hts
    · obtain rfl := Res.ok.inj hts
      obtain rfl := Res.ok.inj h
      show _ = _
      simp
  | sum =>
    show ∀ ns : List Int, _
    rintro ns rfl
    unfold AggOp.resultType at hts
    simp only at he
    split at hts
    · cases hts
    · simp only at hts
      split at hts
      · obtain rfl := Res.ok.inj hts
        split at he
        · obtain rfl := Res.ok.inj he
          rw [fromSql_null] at h; cases h
        · rw [allIntegers_longs] at he
          simp only at he
          split at he
          · obtain rfl := Res.ok.inj he
            have : ValueType.tag (if ts .double then .double else .long) = 5 := by split <;> rfl
            rw [this] at h
            exact (Res.ok.inj h).symm
          · cases he
      · cases hts
  | avg => trivial
  | max =>
    obtain rfl := Res.ok.inj he
    obtain ⟨h1, h2⟩ := picks (lt := fun v w => w.lt v) (fun _ _ => SqlValue.lt_asymm) (fun _ _ _ h h' => SqlValue.lt_neg h' h)
      hp hr (fun v hv => by rw [toSql_tag]; exact (resultType_tag hts (.inl rfl) (ht v hv)).symm) h
    refine ⟨h1, fun w hw => ?_⟩
    rintro (hb | ⟨-, hb⟩)
    · rw [toSql_tag, toSql_tag, ← resultType_tag hts (.inl rfl) (ht v h1), ← resultType_tag hts (.inl rfl) (ht w hw)] at hb
      omega
    · rw [h2 w hw] at hb; cases hb
  | min =>
    obtain rfl := Res.ok.inj he
    obtain ⟨h1, h2⟩ := picks (lt := SqlValue.lt) (fun _ _ => SqlValue.lt_asymm) (fun _ _ _ h h' => SqlValue.lt_neg h h')
      hp hr (fun v hv => by rw [toSql_tag]; exact (resultType_tag hts (.inr rfl) (ht v hv)).symm) h
    refine ⟨h1, fun w hw => ?_⟩
    rintro (hb | ⟨-, hb⟩)
    · rw [toSql_tag, toSql_tag, ← resultType_tag hts (.inr rfl) (ht v h1), ← resultType_tag hts (.inr rfl) (ht w hw)] at hb
      omega
    · rw [h2 w hw] at hb; cases hb

/-- Of values there is always a result that is not NULL. -/
theorem eval_nonNull {fl : Floats} (hfl : ∀ l, l ≠ [] → fl.avg l ≠ .null) {op : AggOp} {vals : List TypedValue} {w : SqlValue}
    (hne : vals ≠ []) (he : op.eval fl (vals.map fun v => v.toSql.1) = .ok w) (hop : op.nullable = true) : w ≠ .null := by
  unfold AggOp.eval at he
  simp only [nonNull_toSql] at he
  have hne' : (vals.map fun v => v.toSql.1) ≠ [] := by simpa using hne
  have hm : ∀ {lt : SqlValue → SqlValue → Bool}, (∀ v w, lt v w = true → lt w v = false) →
      (∀ v w u, lt v w = false → lt w u = false → lt v u = false) →
      (pickLeast lt (vals.map fun v => v.toSql.1)).getD .null ≠ .null := by
    intro lt ha hn
    obtain ⟨h1, h2⟩ := pickLeast_spec ha hn (l := vals.map fun v => v.toSql.1)
    obtain ⟨s, hs⟩ := h1 hne'
    have := (h2 s hs).1
    rw [List.mem_map] at this
    obtain ⟨u, -, rfl⟩ := this
    rw [hs]
    exact toSql_ne_null u
  cases op with
  | count => cases hop
  | sum => cases hop
  | avg =>
    obtain rfl := Res.ok.inj he
    rw [if_neg (by simpa using hne)]
    exact hfl _ hne'
  | max => obtain rfl := Res.ok.inj he; exact hm (fun _ _ => SqlValue.lt_asymm) (fun _ _ _ h h' => SqlValue.lt_neg h' h)
  | min => obtain rfl := Res.ok.inj he; exact hm (fun _ _ => SqlValue.lt_asymm) (fun _ _ _ h h' => SqlValue.lt_neg h h')


/-! ### The columns of an aggregating query -/

theorem mem_inserted {l : List Var} {x y : Var} : y ∈ setInsert l x ↔ y ∈ l ∨ y = x := by
  unfold setInsert
  split
  · rename_i h
    constructor
    · exact .inl
    · rintro (h' | rfl)
      · exact h'
      · exact h
  · simp

def outerOf (cc : CC) : Sought → List OuterCol
  | .inl g => .name (.var g) :: if (cc.knownTypeSet g).uniqueTag.isNone then [.name (.varTag g)] else []
  | .inr (op, x) => [.agg op (.inl (.var x))]

/-- How what is sought is read. -/
def KindOk (cc : CC) : Sought → Option Nat → Prop
  | .inl g, k => k = (cc.knownTypeSet g).uniqueTag
  | .inr (op, x), k => ∃ t, op.resultType (cc.knownTypeSet x) = .ok t ∧ k = some t.tag

def groupOf (cc : CC) (x : Var) : List Col :=
  .var x :: if (cc.knownTypeSet x).uniqueTag.isNone then [.varTag x] else []

/-- The columns for a variable are among those projected. -/
def Shown (cc : CC) (cols : List (SExpr × Col)) (x : Var) : Prop :=
  ∀ c ∈ groupOf cc x, c ∈ cols.map (·.2)

def NamedIn (cc : CC) (V : List Var) (c : SExpr × Col) : Prop := Named cc c ∧ ∃ x ∈ V, c.2 = .var x ∨ c.2 = .varTag x

theorem tmplsFrom_append : ∀ (ks : List (Option Nat)) (i : Nat) (k : Option Nat),
    tmplsFrom i (ks ++ [k]) = tmplsFrom i ks ++ [tmplOf (i + (ks.map kindWidth).sum) k]
  | [], i, k => by simp [tmplsFrom]
  | k' :: ks, i, k => by
    simp only [List.cons_append, tmplsFrom, List.map_cons, List.sum_cons, tmplsFrom_append ks]
    rw [Nat.add_assoc]

structure LoopInv (cc : CC) (fs : List Sought) (ks : List (Option Nat)) (p : Proj) : Prop where
  outer : p.outer = fs.flatMap (outerOf cc)
  tmpl : p.templates = tmplsFrom 0 ks
  idx : p.i = (ks.map kindWidth).sum
  kinds : List.Forall₂ (KindOk cc) fs ks
  named : ∀ c ∈ p.inner, NamedIn cc (fs.map Sought.var) c
  shown : ∀ x ∈ p.innerVars, Shown cc p.inner x
  vars : ∀ f ∈ fs, f.var ∈ p.innerVars
  groups : p.outerVars = Sought.groups fs
  corr : p.corrVars = []
  agg : (∃ a, .inr a ∈ fs) → p.aggregates = true
  bound : ∀ x ∈ p.innerVars, (AMap.get cc.colb x).isSome

theorem typeColumn_name {cc : CC} {x : Var} {tc : SExpr × Col} (h : cc.typeColumn x = .ok tc) : tc.2 = .varTag x := by
  unfold typeColumn at h
  split at h
  · obtain rfl := Res.ok.inj h; rfl
  · cases h

theorem projectedColumn_free {cc : CC} {x : Var} {r : SExpr × TypeSet} (hv : AMap.get cc.vals x = none)
    (h : cc.projectedColumn x = .ok r) : r.2 = cc.knownTypeSet x ∧ (AMap.get cc.colb x).isSome := by
  unfold projectedColumn at h
  rw [hv] at h
  cases hc : AMap.get cc.colb x with
  | none => rw [hc] at h; cases h
  | some l =>
    rw [hc] at h
    match l, h with
    | q :: _, h => obtain rfl := Res.ok.inj h; exact ⟨rfl, rfl⟩

theorem forall₂_snoc {α β : Type} {R : α → β → Prop} {l : List α} {m : List β} {a : α} {b : β} (h : List.Forall₂ R l m)
    (hab : R a b) : List.Forall₂ R (l ++ [a]) (m ++ [b]) := by
  induction h with
  | nil => exact .cons hab .nil
  | cons h _ ih => exact .cons h ih

theorem Shown.append {cc : CC} {cols : List (SExpr × Col)} {x : Var} (h : Shown cc cols x) (l : List (SExpr × Col)) :
    Shown cc (cols ++ l) x := by
  intro c hc
  rw [List.map_append, List.mem_append]
  exact .inl (h c hc)

theorem namedIn_snoc {cc : CC} {fs : List Sought} {f : Sought} {l : List (SExpr × Col)}
    (h : ∀ c ∈ l, NamedIn cc (fs.map Sought.var) c) : ∀ c ∈ l, NamedIn cc ((fs ++ [f]).map Sought.var) c := by
  intro c hc
  obtain ⟨h1, x, hx, h2⟩ := h c hc
  exact ⟨h1, x, by rw [List.map_append, List.mem_append]; exact .inl hx, h2⟩

theorem namedIn_two {cc : CC} {V : List Var} {x : Var} (hx : x ∈ V) {r : SExpr × TypeSet} (hr : cc.projectedColumn x = .ok r)
    {tc : SExpr × Col} (htc : cc.typeColumn x = .ok tc) : ∀ c ∈ [(r.1, .var x), tc], NamedIn cc V c := by
  intro c hc
  rw [List.mem_cons, List.mem_singleton] at hc
  rcases hc with rfl | rfl
  · exact ⟨named_var hr, x, hx, .inl rfl⟩
  · exact ⟨named_tag htc, x, hx, .inr (typeColumn_name htc)⟩

theorem namedIn_one {cc : CC} {V : List Var} {x : Var} (hx : x ∈ V) {r : SExpr × TypeSet} (hr : cc.projectedColumn x = .ok r) :
    ∀ c ∈ [((r.1, .var x) : SExpr × Col)], NamedIn cc V c := by
  intro c hc
  rw [List.mem_singleton] at hc
  subst hc
  exact ⟨named_var hr, x, hx, .inl rfl⟩

theorem shown_two {cc : CC} {cols : List (SExpr × Col)} {x : Var} {e : SExpr} {tc : SExpr × Col} (htc : tc.2 = .varTag x) :
    Shown cc (cols ++ [(e, .var x), tc]) x := by
  intro c hc
  unfold groupOf at hc
  rw [List.map_append, List.mem_append]
  right
  simp only [List.map_cons, List.map_nil, htc]
  split at hc
  · exact hc
  · rw [List.mem_singleton] at hc; simp [hc]

theorem shown_one {cc : CC} {cols : List (SExpr × Col)} {x : Var} {e : SExpr} (hk : (cc.knownTypeSet x).uniqueTag.isNone = false) :
    Shown cc (cols ++ [(e, .var x)]) x := by
  intro c hc
  unfold groupOf at hc
  rw [hk] at hc
  simp only [Bool.false_eq_true, if_false, List.mem_singleton] at hc
  simp [hc]

theorem mem_groups {fs : List Sought} {g : Var} : g ∈ Sought.groups fs ↔ .inl g ∈ fs := by
  unfold Sought.groups
  rw [List.mem_filterMap]
  constructor
  · rintro ⟨f, hf, h⟩
    cases f with
    | inl x => cases h; exact hf
    | inr x => cases h
  · exact fun h => ⟨_, h, rfl⟩

theorem loop_step {cc : CC} {fs : List Sought} {ks : List (Option Nat)} {p p' : Proj} (hi : LoopInv cc fs ks p) {f : Sought}
    (hv : AMap.get cc.vals f.var = none) (h : cc.projectElement p f.element = .ok p') :
    ∃ k, LoopInv cc (fs ++ [f]) (ks ++ [k]) p' := by
  have hmem : f.var ∈ (fs ++ [f]).map Sought.var := by simp
  cases f with
  | inl g =>
    have hv : AMap.get cc.vals g = none := hv
    simp only [Sought.element, projectElement] at h
    split at h
    · cases h
    unfold projectVar at h
    obtain ⟨r, hr, h⟩ := bind_iff.mp h
    obtain ⟨hr2, hb⟩ := projectedColumn_free hv hr
    simp only at h
    rw [hr2] at h
    cases hu : (cc.knownTypeSet g).uniqueTag with
    | some tag =>
      rw [hu] at h
      obtain rfl := Res.ok.inj h
      refine ⟨some tag, ⟨?_, ?_, ?_, forall₂_snoc hi.kinds hu.symm, ?_, ?_, ?_, ?_, hi.corr, ?_, ?_⟩⟩
      · simp [hi.outer, outerOf, hu]
      · simp only [hi.tmpl, hi.idx, tmplsFrom_append, Nat.zero_add, tmplOf]
      · simp [hi.idx, kindWidth]
      · intro c hc
        rw [List.mem_append] at hc
        exact hc.elim (namedIn_snoc hi.named c) (namedIn_one hmem hr c)
      · intro x hx
        rcases mem_inserted.mp hx with hx | rfl
        · exact (hi.shown x hx).append _
        · exact shown_one (by simp [hu])
      · intro f hf
        rw [List.mem_append, List.mem_singleton] at hf
        rcases hf with hf | rfl
        · exact mem_inserted.mpr (.inl (hi.vars f hf))
        · exact mem_inserted.mpr (.inr rfl)
      · simp [hi.groups, Sought.groups]
      · rintro ⟨a, ha⟩
        refine hi.agg ⟨a, ?_⟩
        simpa using ha
      · intro y hy
        rcases mem_inserted.mp hy with hy | rfl
        · exact hi.bound y hy
        · exact hb
    | none =>
      rw [hu] at h
      obtain ⟨tc, htc, h⟩ := bind_iff.mp h
      obtain rfl := Res.ok.inj h
      refine ⟨none, ⟨?_, ?_, ?_, forall₂_snoc hi.kinds hu.symm, ?_, ?_, ?_, ?_, hi.corr, ?_, ?_⟩⟩
      · simp [hi.outer, outerOf, hu]
      · simp only [hi.tmpl, hi.idx, tmplsFrom_append, Nat.zero_add, tmplOf]
      · simp [hi.idx, kindWidth]
      · intro c hc
        simp only [List.append_assoc, List.cons_append, List.nil_append] at hc
        rw [List.mem_append] at hc
        exact hc.elim (namedIn_snoc hi.named c) (namedIn_two hmem hr htc c)
      · intro x hx
        simp only [List.append_assoc, List.cons_append, List.nil_append]
        rcases mem_inserted.mp hx with hx | rfl
        · exact (hi.shown x hx).append _
        · exact shown_two (typeColumn_name htc)
      · intro f hf
        rw [List.mem_append, List.mem_singleton] at hf
        rcases hf with hf | rfl
        · exact mem_inserted.mpr (.inl (hi.vars f hf))
        · exact mem_inserted.mpr (.inr rfl)
      · simp [hi.groups, Sought.groups]
      · rintro ⟨a, ha⟩
        refine hi.agg ⟨a, ?_⟩
        simpa using ha
      · intro y hy
        rcases mem_inserted.mp hy with hy | rfl
        · exact hi.bound y hy
        · exact hb
  | inr a =>
    obtain ⟨op, x⟩ := a
    have hv : AMap.get cc.vals x = none := hv
    simp only [Sought.element, projectElement, simpleAggregate] at h
    obtain ⟨r, hr, h⟩ := bind_iff.mp h
    unfold aggregateColumn at hr
    obtain ⟨t, ht, hr⟩ := bind_iff.mp hr
    rw [hv] at hr
    obtain rfl := Res.ok.inj hr
    obtain ⟨p1, hp1, h⟩ := bind_iff.mp h
    obtain rfl := Res.ok.inj h
    have key : ∃ l, p1.inner = p.inner ++ l ∧ (∀ c ∈ l, NamedIn cc ((fs ++ [Sum.inr (op, x)]).map Sought.var) c) ∧
        (∀ y, y ∈ p1.innerVars ↔ y ∈ p.innerVars ∨ y = x) ∧ Shown cc p1.inner x ∧ (AMap.get cc.colb x).isSome ∧
        p1.outer = p.outer ++ [.agg op (.inl (.var x))] ∧ p1.templates = p.templates ∧ p1.i = p.i ∧ p1.outerVars = p.outerVars ∧
        p1.corrVars = p.corrVars ∧ p1.aggregates = true := by
      split at hp1
      · rename_i hm
        obtain rfl := Res.ok.inj hp1
        have hm : x ∈ p.innerVars := hm
        refine ⟨[], by simp, by simp, ?_, hi.shown x hm, hi.bound x hm, rfl, rfl, rfl, rfl, rfl, rfl⟩
        · intro y
          constructor
          · exact fun h => .inl h
          · rintro (h | rfl)
            · exact h
            · exact hm
      · obtain ⟨c, hc, hp1⟩ := bind_iff.mp hp1
        obtain ⟨hc2, hb⟩ := projectedColumn_free hv hc
        simp only at hp1
        split at hp1
        · obtain ⟨tc, htc, hp1⟩ := bind_iff.mp hp1
          obtain rfl := Res.ok.inj hp1
          refine ⟨[(c.1, .var x), tc], by simp, namedIn_two hmem hc htc, fun y => mem_inserted, ?_, hb, rfl, rfl, rfl, rfl, rfl, rfl⟩
          simp only [List.append_assoc, List.cons_append, List.nil_append]
          exact shown_two (typeColumn_name htc)
        · rename_i hk
          obtain rfl := Res.ok.inj hp1
          exact ⟨[(c.1, .var x)], by simp, namedIn_one hmem hc, fun y => mem_inserted, shown_one (by simpa only [Bool.not_eq_true] using hk), hb,
            rfl, rfl, rfl, rfl, rfl, rfl⟩
    obtain ⟨l, k1, k2, k3, k4, k5, k6, k7, k8, k9, k10, k11⟩ := key
    refine ⟨some t.tag, ⟨?_, ?_, ?_, forall₂_snoc hi.kinds ⟨t, ht, rfl⟩, ?_, ?_, ?_, ?_, ?_, ?_, ?_⟩⟩
    · simp [k6, hi.outer, outerOf]
    · simp only [k7, k8, hi.tmpl, hi.idx, tmplsFrom_append, Nat.zero_add, tmplOf]
    · simp [k8, hi.idx, kindWidth]
    · intro c hc
      simp only [k1] at hc
      rw [List.mem_append] at hc
      exact hc.elim (namedIn_snoc hi.named c) (k2 c)
    · intro y hy
      rcases (k3 y).mp hy with hy | rfl
      · simp only [k1]
        exact (hi.shown y hy).append _
      · exact k4
    · intro f hf
      rw [List.mem_append, List.mem_singleton] at hf
      rcases hf with hf | rfl
      · exact (k3 _).mpr (.inl (hi.vars f hf))
      · exact (k3 _).mpr (.inr rfl)
    · simp [k9, hi.groups, Sought.groups]
    · rw [← hi.corr]; exact k10
    · exact fun _ => k11
    · intro y hy
      rcases (k3 y).mp hy with hy | rfl
      · exact hi.bound y hy
      · exact k5


theorem loop_all {cc : CC} : ∀ (gs fs : List Sought) {ks : List (Option Nat)} {p p' : Proj}, LoopInv cc fs ks p →
    (∀ f ∈ gs, AMap.get cc.vals f.var = none) → cc.projectElementsLoop p (gs.map Sought.element) = .ok p' →
    ∃ ks', LoopInv cc (fs ++ gs) ks' p'
  | [], fs, ks, p, p', hi, _, h => by
    obtain rfl := Res.ok.inj h
    exact ⟨ks, by simpa using hi⟩
  | g :: gs, fs, ks, p, p', hi, hv, h => by
    simp only [List.map_cons, projectElementsLoop] at h
    obtain ⟨p1, h1, h2⟩ := bind_iff.mp h
    obtain ⟨k, hi1⟩ := loop_step hi (hv g (by simp)) h1
    obtain ⟨ks', h'⟩ := loop_all gs (fs ++ [g]) hi1 (fun f hf => hv f (by simp [hf])) h2
    exact ⟨ks', by simpa using h'⟩

theorem loopInv_nil (cc : CC) : LoopInv cc [] [] {} :=
  ⟨rfl, rfl, rfl, .nil, by simp, by simp, by simp, rfl, rfl, by simp, by simp⟩

/-- All that is grouped by is projected. -/
theorem projectGroup_spec {cc : CC} {p : Proj} : ∀ {gs : List Var} {gb : List Col} {pg : Proj × List Col},
    (∀ g ∈ gs, AMap.get cc.vals g = none ∧ g ∈ p.innerVars) →
    cc.projectGroup p gb (gs.map (·, true)) = .ok pg → pg = (p, gb ++ gs.flatMap (groupOf cc))
  | [], gb, pg, _, h => by obtain rfl := Res.ok.inj h; simp
  | g :: gs, gb, pg, hg, h => by
    obtain ⟨h1, h2⟩ := hg g (by simp)
    simp only [List.map_cons, projectGroup, h1, h2, decide_true, if_true, Option.isSome_none, Bool.false_eq_true, if_false,
      Res.bind] at h
    cases hu : (cc.knownTypeSet g).uniqueTag with
    | some t =>
      rw [hu] at h
      have := projectGroup_spec (fun g hg' => hg g (by simp [hg'])) h
      simp [this, groupOf, hu]
    | none =>
      rw [hu] at h
      have := projectGroup_spec (fun g hg' => hg g (by simp [hg'])) h
      simp [this, groupOf, hu]

theorem projectWith_spec {cc : CC} : ∀ {ws V : List Var} {p p' : Proj},
    (∀ c ∈ p.inner, NamedIn cc V c) → (∀ x ∈ p.innerVars, Shown cc p.inner x ∧ (AMap.get cc.colb x).isSome) →
    cc.projectWith p ws = .ok p' →
    p'.outer = p.outer ∧ p'.templates = p.templates ∧ (∀ c ∈ p'.inner, NamedIn cc (V ++ ws) c) ∧
    (∀ x, Shown cc p.inner x → Shown cc p'.inner x) ∧
    ∀ x ∈ ws, AMap.get cc.vals x = none → Shown cc p'.inner x ∧ (AMap.get cc.colb x).isSome
  | [], V, p, p', hn, _, h => by
    obtain rfl := Res.ok.inj h
    simpa using hn
  | w :: ws, V, p, p', hn, hs, h => by
    have mono : ∀ {l : List (SExpr × Col)}, (∀ c ∈ l, NamedIn cc V c) → ∀ c ∈ l, NamedIn cc (V ++ [w]) c := by
      intro l hl c hc
      obtain ⟨h1, x, hx, h2⟩ := hl c hc
      exact ⟨h1, x, by simp [hx], h2⟩
    unfold projectWith at h
    split at h
    · rename_i hw
      obtain ⟨h1, h2, h3, h4, h5⟩ := projectWith_spec (V := V ++ [w]) (mono hn) hs h
      refine ⟨h1, h2, by simpa using h3, h4, ?_⟩
      intro x hx hv
      rw [List.mem_cons] at hx
      rcases hx with rfl | hx
      · rcases hw with hw | hw
        · rw [hv] at hw; cases hw
        · exact ⟨h4 x (hs x hw).1, (hs x hw).2⟩
      · exact h5 x hx hv
    · rename_i hw
      rw [not_or] at hw
      have hv : AMap.get cc.vals w = none := by simpa using hw.1
      obtain ⟨r, hr, h⟩ := bind_iff.mp h
      obtain ⟨hr2, hb⟩ := projectedColumn_free hv hr
      simp only at h
      have fin : ∀ {l : List (SExpr × Col)}, (∀ c ∈ l, NamedIn cc (V ++ [w]) c) → Shown cc (p.inner ++ l) w →
          cc.projectWith { p with inner := p.inner ++ l } ws = .ok p' → _ := fun {l} hl hsh h => by
        have := projectWith_spec (V := V ++ [w]) (p := { p with inner := p.inner ++ l }) (p' := p')
          (fun c hc => by
            rw [List.mem_append] at hc
            exact hc.elim (mono hn c) (hl c)) (fun x hx => ⟨(hs x hx).1.append _, (hs x hx).2⟩) h
        obtain ⟨h1, h2, h3, h4, h5⟩ := this
        show p'.outer = p.outer ∧ p'.templates = p.templates ∧ (∀ c ∈ p'.inner, NamedIn cc (V ++ w :: ws) c) ∧
          (∀ x, Shown cc p.inner x → Shown cc p'.inner x) ∧
          ∀ x ∈ w :: ws, AMap.get cc.vals x = none → Shown cc p'.inner x ∧ (AMap.get cc.colb x).isSome
        refine ⟨h1, h2, by simpa using h3, fun x hx => h4 x (hx.append _), ?_⟩
        intro x hx hv
        rw [List.mem_cons] at hx
        rcases hx with rfl | hx
        · exact ⟨h4 x hsh, hb⟩
        · exact h5 x hx hv
      split at h
      · rename_i hu
        rw [hr2] at hu
        refine fin (namedIn_one (by simp) hr) (shown_one ?_) h
        cases hk : (cc.knownTypeSet w).uniqueTag with
        | none => rw [hk] at hu; cases hu
        | some _ => rfl
      · obtain ⟨tc, htc, h⟩ := bind_iff.mp h
        refine fin (namedIn_two (by simp) hr htc) (shown_two (typeColumn_name htc)) ?_
        simpa using h

/-- What an aggregating query projects. -/
structure Aggregating (cc : CC) (fs : List Sought) (ws : List Var) (ks : List (Option Nat)) (p : Projected) : Prop where
  outer : p.outer = some (fs.flatMap (outerOf cc), (Sought.groups fs).flatMap (groupOf cc))
  tmpl : p.templates = tmplsFrom 0 ks
  kinds : List.Forall₂ (KindOk cc) fs ks
  named : ∀ c ∈ p.cols, NamedIn cc (fs.map Sought.var ++ ws) c
  shown : ∀ x ∈ fs.map Sought.var ++ ws, AMap.get cc.vals x = none → Shown cc p.cols x ∧ (AMap.get cc.colb x).isSome

theorem projectElements_aggregating {a : Algebraic} {fs : List Sought} (hf : a.find.elements = fs.map Sought.element)
    (hv : ∀ f ∈ fs, AMap.get a.cc.vals f.var = none) (hn : a.named = []) (hagg : ∃ o, .inr o ∈ fs) {p : Projected}
    (h : projectElements a = .ok p) : ∃ ks, Aggregating a.cc fs a.withVars ks p := by
  unfold projectElements at h
  rw [hf] at h
  obtain ⟨p1, h1, h⟩ := bind_iff.mp h
  obtain ⟨ks, hi⟩ := loop_all fs [] (loopInv_nil a.cc) hv h1
  rw [List.nil_append] at hi
  split at h
  · cases h
  rw [hn] at h
  obtain ⟨p2, h2, h⟩ := bind_iff.mp h
  obtain rfl := Res.ok.inj h2
  rw [hi.agg hagg, hi.groups, hi.corr] at h
  simp only [Bool.not_true, Bool.false_eq_true, if_false, List.map_nil, List.append_nil] at h
  obtain ⟨pg, hpg, h⟩ := bind_iff.mp h
  have hpg := projectGroup_spec (fun g hg => by
    have := mem_groups.mp hg
    exact ⟨hv _ this, hi.vars _ this⟩) hpg
  subst hpg
  obtain ⟨p3, h3, h⟩ := bind_iff.mp h
  obtain rfl := Res.ok.inj h
  obtain ⟨g1, g2, g3, g4, g5⟩ := projectWith_spec hi.named (fun x hx => ⟨hi.shown x hx, hi.bound x hx⟩) h3
  refine ⟨ks, ⟨?_, by rw [g2]; exact hi.tmpl, hi.kinds, g3, ?_⟩⟩
  · simp [g1, hi.outer]
  · intro x hx hvx
    rw [List.mem_append] at hx
    rcases hx with hx | hx
    · rw [List.mem_map] at hx
      obtain ⟨f, hf, rfl⟩ := hx
      exact ⟨g4 _ (hi.shown _ (hi.vars f hf)), hi.bound _ (hi.vars f hf)⟩
    · exact g5 x hx hvx


/-! ### The rows -/

/-- The assignments give the variables the same values. -/
def _root_.Mentat.Assign.Agree (V : List Var) (ρ σ : Assign) : Prop := ∀ x ∈ V, ρ x = σ x

instance (V : List Var) (ρ σ : Assign) : Decidable (Assign.Agree V ρ σ) := by unfold Assign.Agree; infer_instance

/-- The row read off an assignment. -/
def RowFor (cc : CC) (cols : List (SExpr × Col)) (r : List SqlValue) (ρ : Assign) : Prop :=
  ∃ env, Reads cc env ρ ∧ r = cols.map fun d => d.1.eval env

theorem rowFor_shown {cc : CC} {cols : List (SExpr × Col)} {V : List Var} (hn : ∀ c ∈ cols, NamedIn cc V c) {r : List SqlValue}
    {ρ : Assign} (hr : RowFor cc cols r ρ) {x : Var} (hs : Shown cc cols x) :
    namedRow (cols.map (·.2)) r (.var x) = (ρ x).toSql.1 ∧
    ((cc.knownTypeSet x).uniqueTag = none → namedRow (cols.map (·.2)) r (.varTag x) = .integer (ρ x).toSql.2) := by
  obtain ⟨env, hrd, rfl⟩ := hr
  constructor
  · obtain ⟨d, hd, h1, h2⟩ := namedRow_eval (env := env) (hs (.var x) (by simp [groupOf]))
    rw [h2]
    exact ((hn d hd).1 env ρ hrd).1 x h1
  · intro hk
    obtain ⟨d, hd, h1, h2⟩ := namedRow_eval (env := env) (hs (.varTag x) (by simp [groupOf, hk]))
    rw [h2]
    exact ((hn d hd).1 env ρ hrd).2 x h1

theorem rowFor_agree {cc : CC} {cols : List (SExpr × Col)} {V : List Var} (hn : ∀ c ∈ cols, NamedIn cc V c)
    {r s : List SqlValue} {ρ σ : Assign} (hr : RowFor cc cols r ρ) (hs : RowFor cc cols s σ) (h : Assign.Agree V ρ σ) : r = s := by
  obtain ⟨env, hrd, rfl⟩ := hr
  obtain ⟨env', hrd', rfl⟩ := hs
  refine List.map_congr_left fun c hc => ?_
  obtain ⟨hnc, x, hx, hcx⟩ := hn c hc
  rcases hcx with hcx | hcx
  · rw [(hnc env ρ hrd).1 x hcx, (hnc env' σ hrd').1 x hcx, h x hx]
  · rw [(hnc env ρ hrd).2 x hcx, (hnc env' σ hrd').2 x hcx, h x hx]

theorem same_sqlEq {v w : TypedValue} : v.toSql.1.same w.toSql.1 = v.toSql.1.eq w.toSql.1 := by
  cases v <;> cases w <;> simp [SqlValue.same, TypedValue.toSql, SqlValue.eq]

theorem same_iff {v w : TypedValue} (hv : v.Proper) (hw : w.Proper) (ht : v.valueType = w.valueType) :
    v.toSql.1.same w.toSql.1 = true ↔ v = w := by
  rw [same_sqlEq, sqlEq_same ht]
  exact ⟨toSql_inj hv hw ht, fun h => by rw [h]⟩

theorem forall₂_filter {α β : Type} {R : α → β → Prop} {f : α → Bool} {g : β → Bool} {l : List α} {m : List β}
    (h : List.Forall₂ R l m) (hfg : ∀ a b, R a b → f a = g b) : List.Forall₂ R (l.filter f) (m.filter g) := by
  induction h with
  | nil => exact .nil
  | @cons a b l m h _ ih =>
    simp only [List.filter_cons, hfg a b h]
    split
    · exact .cons h ih
    · exact ih

theorem forall₂_map_eq {α β γ : Type} {R : α → β → Prop} {f : α → γ} {g : β → γ} {l : List α} {m : List β}
    (h : List.Forall₂ R l m) (hfg : ∀ a b, R a b → f a = g b) : l.map f = m.map g := by
  induction h with
  | nil => rfl
  | cons h _ ih => rw [List.map_cons, List.map_cons, ih, hfg _ _ h]

theorem forall₂_with {α β : Type} {R : α → β → Prop} {l : List α} {m : List β} {P : β → Prop} (h : List.Forall₂ R l m)
    (hP : ∀ b ∈ m, P b) : List.Forall₂ (fun a b => R a b ∧ P b) l m := by
  induction h with
  | nil => exact .nil
  | cons h _ ih => exact .cons ⟨h, hP _ (by simp)⟩ (ih fun b hb => hP b (by simp [hb]))

theorem outerRow_append {fl : Floats} {names : List Col} {bare : Option (List SqlValue)} {group : List (List SqlValue)} :
    ∀ {cs ds : List OuterCol} {row : List SqlValue}, outerRow fl names bare group (cs ++ ds) = .ok row →
    ∃ r s, outerRow fl names bare group cs = .ok r ∧ outerRow fl names bare group ds = .ok s ∧ row = r ++ s
  | [], ds, row, h => ⟨[], row, rfl, h, rfl⟩
  | c :: cs, ds, row, h => by
    simp only [List.cons_append, outerRow] at h
    obtain ⟨v, hv, h⟩ := bind_iff.mp h
    obtain ⟨r, hr, h⟩ := bind_iff.mp h
    obtain rfl := Res.ok.inj h
    obtain ⟨r1, s, h1, h2, rfl⟩ := outerRow_append hr
    exact ⟨v :: r1, s, by simp [outerRow, hv, h1, Res.bind], h2, rfl⟩

/-- A row given for a group: the values grouped by, and the aggregates of the group's. -/
def Given (ds : List Assign) (γ : Assign) : Sought → TypedValue → Prop
  | .inl g, v => v = γ g
  | .inr (op, x), v => op.Gives (ds.map (· x)) v

/-- Reading a row of the outer statement. -/
theorem outerRow_given {cc : CC} {fl : Floats} {names : List Col} {bare : Option (List SqlValue)} {group : List (List SqlValue)}
    {ds : List Assign} {γ : Assign} :
    ∀ {fs : List Sought} {ks : List (Option Nat)} {row pre : List SqlValue} {vs : List TypedValue},
    List.Forall₂ (KindOk cc) fs ks →
    (∀ g, .inl g ∈ fs → (γ g).Proper ∧ (γ g).Readable ∧ cc.knownTypeSet g (γ g).valueType = true ∧
      ∃ r, bare = some r ∧ namedRow names r (.var g) = (γ g).toSql.1 ∧
      ((cc.knownTypeSet g).uniqueTag = none → namedRow names r (.varTag g) = .integer (γ g).toSql.2)) →
    (∀ op x, .inr (op, x) ∈ fs → (group.map fun r => namedRow names r (.var x)) = (ds.map (· x)).map (fun v => v.toSql.1) ∧
      ∀ d ∈ ds, (d x).Proper ∧ (d x).Readable ∧ cc.knownTypeSet x (d x).valueType = true) →
    outerRow fl names bare group (fs.flatMap (outerOf cc)) = .ok row →
    lookupAll (pre ++ row) (tmplsFrom pre.length ks) = .ok vs → List.Forall₂ (Given ds γ) fs vs
  | [], _, row, pre, vs, .nil, _, _, _, h => by
    obtain rfl := Res.ok.inj h
    exact .nil
  | f :: fs, k :: ks, row, pre, vs, .cons hk hks, hg, ha, hrow, h => by
    rw [List.flatMap_cons] at hrow
    obtain ⟨r1, r2, h1, h2, rfl⟩ := outerRow_append hrow
    simp only [tmplsFrom, lookupAll] at h
    obtain ⟨v, hv, h⟩ := bind_iff.mp h
    obtain ⟨vs', hvs, h⟩ := bind_iff.mp h
    obtain rfl := Res.ok.inj h
    have step : r1.length = kindWidth k → Given ds γ f v → List.Forall₂ (Given ds γ) (f :: fs) (v :: vs') := by
      intro hl hv
      refine .cons hv (outerRow_given (pre := pre ++ r1) hks (fun g hm => hg g (by simp [hm])) (fun op x hm => ha op x (by simp [hm])) h2 ?_)
      rw [List.length_append, hl, List.append_assoc]
      exact hvs
    cases f with
    | inl g =>
      obtain ⟨p1, p2, p3, r, rfl, p4, p5⟩ := hg g (by simp)
      have hk : k = (cc.knownTypeSet g).uniqueTag := hk
      have hrt := (C01_round_trip_partial p1).mpr p2
      cases hu : (cc.knownTypeSet g).uniqueTag with
      | some tag =>
        rw [hu] at hk
        subst hk
        simp only [outerOf, hu, Option.isNone_some, Bool.false_eq_true, if_false, outerRow, outerColumn, Res.bind] at h1
        obtain rfl := Res.ok.inj h1
        refine step rfl ?_
        simp only [tmplOf, TIndex.lookup] at hv
        rw [List.getElem?_append_right (by omega)] at hv
        simp only [Nat.sub_self, List.cons_append, List.getElem?_cons_zero, p4] at hv
        rw [← uniqueTag_of hu p3, ← toSql_tag, hrt] at hv
        exact (Res.ok.inj hv).symm
      | none =>
        rw [hu] at hk
        subst hk
        simp only [outerOf, hu, Option.isNone_none, if_true, outerRow, outerColumn, Res.bind] at h1
        obtain rfl := Res.ok.inj h1
        refine step rfl ?_
        simp only [tmplOf, TIndex.lookup, p4, p5 hu, List.cons_append, List.nil_append] at hv
        have e0 : ∀ a b : SqlValue, (pre ++ a :: b :: r2)[pre.length]? = some a := by simp
        have e1 : ∀ a b : SqlValue, (pre ++ a :: b :: r2)[pre.length + 1]? = some b := fun a b => by
          rw [List.getElem?_append_right (by omega)]; simp
        rw [e0, e1] at hv
        simp only at hv
        rw [if_neg (by omega)] at hv
        rw [show ((γ g).toSql.2 : Int).toNat = (γ g).toSql.2 by simp, hrt] at hv
        exact (Res.ok.inj hv).symm
    | inr a =>
      obtain ⟨op, x⟩ := a
      obtain ⟨t, ht, rfl⟩ := hk
      obtain ⟨q1, q2⟩ := ha op x (by simp)
      simp only [outerOf, outerRow, outerColumn] at h1
      obtain ⟨w, hw, h1⟩ := bind_iff.mp h1
      obtain rfl := Res.ok.inj h1
      refine step rfl ?_
      simp only [tmplOf, TIndex.lookup] at hv
      rw [List.getElem?_append_right (by omega)] at hv
      simp only [Nat.sub_self, List.cons_append, List.getElem?_cons_zero] at hv
      rw [q1] at hw
      refine eval_gives hw ht ?_ ?_ ?_ hv
      all_goals
        intro v hm
        rw [List.mem_map] at hm
        obtain ⟨d, hd, rfl⟩ := hm
      · exact (q2 d hd).2.2
      · exact (q2 d hd).1
      · exact (q2 d hd).2.1

/-- No row of a group of answers is left out for being NULL. -/
theorem outerRow_kept {cc : CC} {fl : Floats} (hfl : ∀ l, l ≠ [] → fl.avg l ≠ .null) {names : List Col}
    {bare : Option (List SqlValue)} {group : List (List SqlValue)} {ds : List Assign} (hne : ds ≠ []) :
    ∀ {fs : List Sought} {row : List SqlValue},
    (∀ op x, .inr (op, x) ∈ fs → (group.map fun r => namedRow names r (.var x)) = (ds.map (· x)).map (fun v => v.toSql.1)) →
    outerRow fl names bare group (fs.flatMap (outerOf cc)) = .ok row →
    (((fs.flatMap (outerOf cc)).zip row).all fun p => p.1.passes p.2) = true
  | [], row, _, _ => rfl
  | f :: fs, row, ha, hrow => by
    rw [List.flatMap_cons] at hrow ⊢
    obtain ⟨r1, r2, h1, h2, rfl⟩ := outerRow_append hrow
    have ih := outerRow_kept hfl hne (fun op x hm => ha op x (by simp [hm])) h2
    cases f with
    | inl g =>
      cases hu : (cc.knownTypeSet g).uniqueTag.isNone with
      | true =>
        simp only [outerOf, hu, if_true, outerRow, outerColumn, Res.bind] at h1
        obtain rfl := Res.ok.inj h1
        simp only [outerOf, hu, if_true, List.cons_append, List.nil_append, List.zip_cons_cons, List.all_cons, OuterCol.passes,
          Bool.true_and]
        exact ih
      | false =>
        simp only [outerOf, hu, Bool.false_eq_true, if_false, outerRow, outerColumn, Res.bind] at h1
        obtain rfl := Res.ok.inj h1
        simp only [outerOf, hu, Bool.false_eq_true, if_false, List.cons_append, List.nil_append, List.zip_cons_cons, List.all_cons,
          OuterCol.passes, Bool.true_and]
        exact ih
    | inr a =>
      obtain ⟨op, x⟩ := a
      simp only [outerOf, outerRow, outerColumn] at h1
      obtain ⟨w, hw, h1⟩ := bind_iff.mp h1
      obtain rfl := Res.ok.inj h1
      simp only [outerOf, List.cons_append, List.nil_append, List.zip_cons_cons, List.all_cons, Bool.and_eq_true, OuterCol.passes]
      refine ⟨?_, ih⟩
      rw [ha op x (by simp)] at hw
      cases hop : op.nullable with
      | false => rfl
      | true =>
        have := eval_nonNull hfl (by simpa using hne) hw hop
        simp [this]

theorem outerRows_spec {fl : Floats} {names : List Col} {cols : List OuterCol} :
    ∀ {gs : List (List (List SqlValue))} {out : List (List SqlValue)}, outerRows fl names cols gs = .ok out →
    List.Forall₂ (fun g r => outerRow fl names (bareRow names cols g) g cols = .ok r) gs out
  | [], out, h => by obtain rfl := Res.ok.inj h; exact .nil
  | g :: gs, out, h => by
    simp only [outerRows] at h
    obtain ⟨r, hr, h⟩ := bind_iff.mp h
    obtain ⟨rs, hrs, h⟩ := bind_iff.mp h
    obtain rfl := Res.ok.inj h
    exact .cons hr (outerRows_spec hrs)

/-- A bare column is read from a row of the group. -/
theorem bareRow_mem {names : List Col} {cols : List OuterCol} {group : List (List SqlValue)} (hne : group ≠ []) :
    ∃ r ∈ group, bareRow names cols group = some r := by
  have hhead : ∃ r ∈ group, group.head? = some r := by
    cases group with
    | nil => exact absurd rfl hne
    | cons r l => exact ⟨r, by simp, rfl⟩
  unfold bareRow
  split
  · rename_i mx n _
    simp only
    split
    · rename_i v hv
      have hm : v ∈ nonNull (group.map fun r => namedRow names r n) := by
        cases mx with
        | true => exact ((pickLeast_spec (lt := fun v w => w.lt v) (fun _ _ => SqlValue.lt_asymm) (fun _ _ _ h h' => SqlValue.lt_neg h' h)).2 v hv).1
        | false => exact ((pickLeast_spec (lt := SqlValue.lt) (fun _ _ => SqlValue.lt_asymm) (fun _ _ _ h h' => SqlValue.lt_neg h h')).2 v hv).1
      unfold nonNull at hm
      rw [List.mem_filter, List.mem_map] at hm
      obtain ⟨⟨r, hr, rfl⟩, hnn⟩ := hm
      cases hf : group.find? fun s => (namedRow names s n).eq (namedRow names r n) with
      | none =>
        rw [List.find?_eq_none] at hf
        exfalso
        apply hf r hr
        cases hx : namedRow names r n with
        | null => rw [hx] at hnn; simp at hnn
        | integer m => simp [SqlValue.eq]
        | real m => simp [SqlValue.eq]
        | text m => simp [SqlValue.eq]
        | blob m => simp [SqlValue.eq]
      | some s =>
        exact ⟨s, List.mem_of_find?_eq_some hf, rfl⟩
    · exact hhead
  · exact hhead


theorem zip_map_all {α : Type} {f g : α → SqlValue} : ∀ {l : List α},
    (((l.map f).zip (l.map g)).all fun p => p.1.same p.2) = true ↔ ∀ c ∈ l, (f c).same (g c) = true
  | [] => by simp
  | a :: l => by
    simp only [List.map_cons, List.zip_cons_cons, List.all_cons, Bool.and_eq_true, zip_map_all (l := l), List.forall_mem_cons]

theorem forall₂_compose {α β γ δ : Type} {A : α → β → Prop} {B : α → γ → Prop} {C : γ → δ → Prop} {D : β → δ → Prop}
    {l : List α} {m : List β} {n : List γ} {o : List δ} (h1 : List.Forall₂ A l m) (h2 : List.Forall₂ B l n)
    (h3 : List.Forall₂ C n o) (h : ∀ a b c d, A a b → B a c → C c d → D b d) : List.Forall₂ D m o := by
  induction h1 generalizing n o with
  | nil => cases h2; cases h3; exact .nil
  | cons g _ ih =>
    cases h2 with
    | cons g2 h2 =>
    cases h3 with
    | cons g3 h3 => exact .cons (h _ _ _ _ g g2 g3) (ih h2 h3)

/-- Rows that tabulate solutions: one for each group of those that are the same in the variables found,
the groups being of solutions that differ in the variables found, aggregated, or mentioned by `:with`. -/
structure Tabulates (S : Assign → Prop) (fs : List Sought) (V : List Var) (ds γs : List Assign) (rows : List (List TypedValue)) :
    Prop where
  sound : ∀ d ∈ ds, S d
  once : ds.Pairwise fun d d' => ¬ Assign.Agree V d d'
  all : ∀ ρ, S ρ → ∃ d ∈ ds, Assign.Agree V ρ d
  rows : List.Forall₂ (fun γ row => List.Forall₂ (Given (ds.filter fun d => decide (Assign.Agree (Sought.groups fs) d γ)) γ) fs row) γs rows
  apart : γs.Pairwise fun γ γ' => ¬ Assign.Agree (Sought.groups fs) γ γ'
  each : ∀ d ∈ ds, ∃ γ ∈ γs, Assign.Agree (Sought.groups fs) d γ
  only : ∀ γ ∈ γs, γ ∈ ds ∨ Sought.groups fs = [] ∧ ds = []

section
variable {k : Known} {L : Var → Prop} {db : Tables} {q : FindQuery} {inputs : Inputs} {a : Algebraic} {fs : List Sought}

theorem aggregate_answers (h : Algebrized k db L q inputs a) (he : a.cc.empty = false) {ks : List (Option Nat)} {p : Projected}
    (hp : Aggregating a.cc fs q.withVars ks p) (hv : ∀ f ∈ fs, AMap.get a.cc.vals f.var = none) (hagg : ∃ o, .inr o ∈ fs)
    (hord : q.order = none) (hL : ∀ x ∈ fs.map Sought.var ++ q.withVars, ¬ L x)
    (hread : ∀ ρ, IsAnswer k.schema db.facts q inputs.values ρ → ∀ f ∈ fs, (ρ f.var).Readable)
    {fl : Floats} (hfl : ∀ l, l ≠ [] → fl.avg l ≠ .null) {rows : List (List SqlValue)} (hr : selectRows fl db a p = .ok rows)
    {lim : Option Nat} (hlim : a.limit.number = .ok lim) (hl1 : lim = none ∨ Sought.groups fs = [] ∧ lim = some 1)
    {vs : List (List TypedValue)} (hvs : lookupRows p.templates rows = .ok vs) :
    ∃ ds γs, Tabulates (IsAnswer k.schema db.facts q inputs.values) fs (fs.map Sought.var ++ q.withVars) ds γs vs := by
  have hty : ∀ x ∈ fs.map Sought.var ++ q.withVars, ∀ ρ σ, IsAnswer k.schema db.facts q inputs.values ρ →
      IsAnswer k.schema db.facts q inputs.values σ → (ρ x).valueType = (σ x).valueType := by
    intro x hx ρ σ hρ hσ
    have hb : (AMap.get a.cc.vals x).isSome ∨ (AMap.get a.cc.colb x).isSome := by
      cases hvx : AMap.get a.cc.vals x with
      | some v => exact .inl rfl
      | none => exact .inr (hp.shown x hx hvx).2
    obtain ⟨t, ht⟩ := h.typed he x (hL x hx) hb
    rw [ht ρ hρ, ht σ hσ]
  have hfV : ∀ f ∈ fs, f.var ∈ fs.map Sought.var ++ q.withVars := fun f hf => by
    rw [List.mem_append]; exact .inl (List.mem_map.mpr ⟨f, hf, rfl⟩)
  unfold selectRows at hr
  rw [hlim, hp.outer, (h.order.1 hord).1] at hr
  obtain ⟨lim', e, hr⟩ := bind_iff.mp hr
  obtain rfl := Res.ok.inj e
  obtain ⟨s, hs, hr⟩ := bind_iff.mp hr
  unfold toSelect at hs
  rw [h.panics, he] at hs
  simp only [Bool.false_eq_true, if_false] at hs
  obtain rfl := Res.ok.inj hs
  obtain ⟨inner, hin, hr⟩ := bind_iff.mp hr
  unfold runSql at hin
  split at hin
  rotate_left
  · cases hin
  obtain rfl := Res.ok.inj hin
  rw [evalSelect] at hr
  have hraw : ∀ r ∈ ((evalFrom db [] a.cc.stables).filter fun loc => evalAll db (loc ++ []) a.cc.wheres).map
      (fun loc => p.cols.map fun c => c.1.eval (loc ++ [])), ∃ ρ, IsAnswer k.schema db.facts q inputs.values ρ ∧ RowFor a.cc p.cols r ρ := by
    intro r hr
    rw [List.mem_map] at hr
    obtain ⟨loc, hl, rfl⟩ := hr
    rw [List.mem_filter] at hl
    obtain ⟨ρ, hρ, hrd⟩ := h.reads loc hl.1 he hl.2
    exact ⟨ρ, hρ, _, hrd, rfl⟩
  have hraw' : ∀ ρ, IsAnswer k.schema db.facts q inputs.values ρ → ∃ r ∈ ((evalFrom db [] a.cc.stables).filter
      fun loc => evalAll db (loc ++ []) a.cc.wheres).map (fun loc => p.cols.map fun c => c.1.eval (loc ++ [])), RowFor a.cc p.cols r ρ := by
    intro ρ hρ
    obtain ⟨loc, hl, hw, hrd⟩ := h.found ρ hρ
    exact ⟨_, List.mem_map.mpr ⟨loc, List.mem_filter.mpr ⟨hl, hw⟩, rfl⟩, _, hrd, rfl⟩
  generalize hR : ((evalFrom db [] a.cc.stables).filter fun loc => evalAll db (loc ++ []) a.cc.wheres).map
      (fun loc => p.cols.map fun c => c.1.eval (loc ++ [])) = raw at hr hraw hraw'
  have hfin : finishRows true (p.cols.map (·.2)) [] none raw = distinctRows raw := by simp [finishRows]
  rw [hfin] at hr
  obtain ⟨d1, d2, d3⟩ := distinctRows_spec raw
  generalize distinctRows raw = inner at hr d1 d2 d3
  obtain ⟨ds, hds⟩ := exists_forall₂ (l := inner) fun r hr => hraw r (d1 r hr)
  have hans : ∀ d ∈ ds, IsAnswer k.schema db.facts q inputs.values d := fun d hd => by
    obtain ⟨r, -, hrd⟩ := forall₂_right hds d hd
    exact hrd.1
  -- rows that are the same are of assignments that agree
  have hsame : ∀ {r s ρ σ}, (IsAnswer k.schema db.facts q inputs.values ρ ∧ RowFor a.cc p.cols r ρ) →
      (IsAnswer k.schema db.facts q inputs.values σ ∧ RowFor a.cc p.cols s σ) → (r = s ∨ rowSame r s = true) →
      Assign.Agree (fs.map Sought.var ++ q.withVars) ρ σ := by
    intro r s ρ σ hρ hσ hrs x hx
    have hrs : rowSame r s = true := by
      rcases hrs with rfl | hrs
      · exact rowSame_refl r
      · exact hrs
    cases hvx : AMap.get a.cc.vals x with
    | some v =>
      obtain ⟨env, hrd, -⟩ := hρ.2
      obtain ⟨env', hrd', -⟩ := hσ.2
      rw [hrd.vals x v hvx, hrd'.vals x v hvx]
    | none =>
      have hsh := (hp.shown x hx hvx).1
      have := get_zip_same (names := p.cols.map (·.2)) hrs (.var x)
      have h1 := (rowFor_shown hp.named hρ.2 hsh).1
      have h2 := (rowFor_shown hp.named hσ.2 hsh).1
      unfold namedRow at h1 h2
      rw [h1, h2] at this
      exact (same_iff (hρ.1.proper x) (hσ.1.proper x) (hty x hx ρ σ hρ.1 hσ.1)).mp this
  have honce : ds.Pairwise fun d d' => ¬ Assign.Agree (fs.map Sought.var ++ q.withVars) d d' := by
    refine forall₂_pairwise hds d3 ?_
    intro r s ρ σ hρ hσ hrs hag
    have := rowFor_agree hp.named hσ.2 hρ.2 (fun x hx => (hag x hx).symm)
    subst this
    rw [rowSame_refl] at hrs; cases hrs
  have hall : ∀ ρ, IsAnswer k.schema db.facts q inputs.values ρ → ∃ d ∈ ds, Assign.Agree (fs.map Sought.var ++ q.withVars) ρ d := by
    intro ρ hρ
    obtain ⟨r, hr, hrf⟩ := hraw' ρ hρ
    obtain ⟨s, hs, hrs⟩ := d2 r hr
    obtain ⟨d, hd, hsd⟩ := forall₂_left hds s hs
    exact ⟨d, hd, hsame ⟨hρ, hrf⟩ hsd hrs⟩
  have hgs : ∀ g ∈ Sought.groups fs, .inl g ∈ fs := fun g hg => mem_groups.mp hg
  have hknown : ∀ d, (∃ r, RowFor a.cc p.cols r d) → ∀ x, a.cc.knownTypeSet x (d x).valueType = true := by
    rintro d ⟨r, env, hrd, -⟩ x
    unfold knownTypeSet
    cases hx : AMap.get a.cc.known x with
    | none => rfl
    | some ts => exact hrd.known x ts hx
  have hshf : ∀ f ∈ fs, Shown a.cc p.cols f.var := fun f hf => (hp.shown f.var (hfV f hf) (hv f hf)).1
  -- a row for a group
  have hone : ∀ {group gds γ row v}, List.Forall₂ (fun r d => IsAnswer k.schema db.facts q inputs.values d ∧ RowFor a.cc p.cols r d) group gds →
      ((∃ g, .inl g ∈ fs) → ∃ r ∈ group, RowFor a.cc p.cols r γ ∧ IsAnswer k.schema db.facts q inputs.values γ) →
      (∀ d ∈ gds, ∀ g, .inl g ∈ fs → d g = γ g) →
      outerRow fl (p.cols.map (·.2)) (bareRow (p.cols.map (·.2)) (fs.flatMap (outerOf a.cc)) group) group (fs.flatMap (outerOf a.cc)) = .ok row →
      lookupAll row p.templates = .ok v → List.Forall₂ (Given gds γ) fs v := by
    intro group gds γ row v hg hγ hag hrow hlk
    rw [hp.tmpl] at hlk
    refine outerRow_given (pre := []) hp.kinds ?_ ?_ hrow hlk
    · intro g hgf
      obtain ⟨r0, hr0, hrγ, hγa⟩ := hγ ⟨g, hgf⟩
      have hne : group ≠ [] := fun e => by subst e; cases hr0
      obtain ⟨r, hrm, hbare⟩ := bareRow_mem (names := p.cols.map (·.2)) (cols := fs.flatMap (outerOf a.cc)) hne
      obtain ⟨d, hd, hrd⟩ := forall₂_left hg r hrm
      obtain ⟨n1, n2⟩ := rowFor_shown hp.named hrd.2 (hshf _ hgf)
      have n1 : namedRow (p.cols.map (·.2)) r (.var g) = (d g).toSql.1 := n1
      rw [hag d hd g hgf] at n1
      refine ⟨hγa.proper g, hread γ hγa _ hgf, hknown γ ⟨_, hrγ⟩ g, r, hbare, n1, ?_⟩
      intro hk
      have := n2 hk
      have this : namedRow (p.cols.map (·.2)) r (.varTag g) = .integer (d g).toSql.2 := this
      rw [hag d hd g hgf] at this
      exact this
    · intro op x hox
      constructor
      · rw [List.map_map]
        exact forall₂_map_eq hg fun r d hrd => (rowFor_shown hp.named hrd.2 (hshf _ hox)).1
      · intro d hd
        obtain ⟨r, -, hrd⟩ := forall₂_right hg d hd
        exact ⟨hrd.1.proper x, hread d hrd.1 _ hox, hknown d ⟨_, hrd.2⟩ x⟩
  have hkeep : ∀ {group gds row}, gds ≠ [] → List.Forall₂ (fun r d => IsAnswer k.schema db.facts q inputs.values d ∧ RowFor a.cc p.cols r d) group gds →
      outerRow fl (p.cols.map (·.2)) (bareRow (p.cols.map (·.2)) (fs.flatMap (outerOf a.cc)) group) group (fs.flatMap (outerOf a.cc)) = .ok row →
      (((fs.flatMap (outerOf a.cc)).zip row).all fun p => p.1.passes p.2) = true := by
    intro group gds row hne hg hrow
    refine outerRow_kept hfl hne ?_ hrow
    intro op x hox
    rw [List.map_map]
    exact forall₂_map_eq hg fun r d hrd => (rowFor_shown hp.named hrd.2 (hshf _ hox)).1
  unfold aggregateRows at hr
  simp only [List.all_nil, Bool.not_true, Bool.false_eq_true, if_false] at hr
  obtain ⟨out, hout, hr⟩ := bind_iff.mp hr
  obtain rfl := Res.ok.inj hr
  have hany : ((fs.flatMap (outerOf a.cc)).any OuterCol.isAggregate) = true := by
    obtain ⟨⟨op, x⟩, ho⟩ := hagg
    rw [List.any_eq_true]
    exact ⟨.agg op (.inl (.var x)), List.mem_flatMap.mpr ⟨_, ho, by simp [outerOf]⟩, rfl⟩
  rw [hany, if_pos rfl] at hout
  have hspec := outerRows_spec hout
  by_cases hgr : Sought.groups fs = []
  · -- a single group
    rw [hgr] at hspec
    simp only [List.flatMap_nil, List.isEmpty_nil, if_true] at hspec
    have hno : ∀ g, .inl g ∉ fs := fun g hg => by
      have := mem_groups.mpr hg
      rw [hgr] at this; cases this
    obtain ⟨row, out', hrow, hnil, rfl⟩ := List.forall₂_cons_left_iff.mp hspec
    cases hnil
    have hfr : finishRows false ((fs.flatMap (outerOf a.cc)).map fun c => c.col.getD (.var [])) [] lim [row] = [row] := by
      rcases hl1 with rfl | ⟨-, rfl⟩ <;> rfl
    rw [hfr] at hvs
    have hfilter : ∀ γ, (ds.filter fun d => decide (Assign.Agree (Sought.groups fs) d γ)) = ds := by
      intro γ
      rw [List.filter_eq_self]
      intro d _
      simp [hgr, Assign.Agree]
    by_cases hdn : ds = []
    · rw [List.filter_cons] at hvs
      split at hvs
      · have hlk := lookupRows_spec hvs
        cases hlk with
        | cons h1 hnil =>
        cases hnil
        refine ⟨ds, [fun _ => .long 0], ⟨hans, honce, hall, .cons ?_ .nil, by simp, by simp [hdn], by simp [hgr, hdn]⟩⟩
        rw [hfilter]
        exact hone hds (fun ⟨g, hg⟩ => absurd hg (hno g)) (fun d _ g hg => absurd hg (hno g)) hrow h1
      · obtain rfl := Res.ok.inj hvs
        exact ⟨ds, [], ⟨hans, honce, hall, .nil, .nil, by simp [hdn], by simp⟩⟩
    · have hk := hkeep hdn hds hrow
      rw [List.filter_cons, if_pos hk] at hvs
      have hlk := lookupRows_spec hvs
      cases hlk with
      | cons h1 hnil =>
      cases hnil
      obtain ⟨d0, hd0⟩ := List.exists_mem_of_ne_nil ds hdn
      refine ⟨ds, [d0], ⟨hans, honce, hall, .cons ?_ .nil, by simp, fun d _ => ⟨d0, by simp, by simp [hgr, Assign.Agree]⟩, by simp [hd0]⟩⟩
      rw [hfilter]
      exact hone hds (fun ⟨g, hg⟩ => absurd hg (hno g)) (fun d _ g hg => absurd hg (hno g)) hrow h1
  · have hl : lim = none := hl1.resolve_right fun e => hgr e.1
    subst hl
    have hgb : ((Sought.groups fs).flatMap (groupOf a.cc)).isEmpty = false := by
      cases hg : Sought.groups fs with
      | nil => exact absurd hg hgr
      | cons g gs => simp [groupOf]
    rw [hgb] at hspec
    simp only [Bool.false_eq_true, if_false] at hspec
    unfold groupRows at hspec
    simp only at hspec
    -- the keys
    have hkey : ∀ {r s ρ σ}, (IsAnswer k.schema db.facts q inputs.values ρ ∧ RowFor a.cc p.cols r ρ) →
        (IsAnswer k.schema db.facts q inputs.values σ ∧ RowFor a.cc p.cols s σ) →
        (((((Sought.groups fs).flatMap (groupOf a.cc)).map (namedRow (p.cols.map (·.2)) r)).zip
          (((Sought.groups fs).flatMap (groupOf a.cc)).map (namedRow (p.cols.map (·.2)) s))).all fun p => p.1.same p.2) =
        decide (Assign.Agree (Sought.groups fs) ρ σ) := by
      intro r s ρ σ hρ hσ
      rw [Bool.eq_iff_iff, zip_map_all, decide_eq_true_eq]
      constructor
      · intro hc g hg
        have hsh : Shown a.cc p.cols g := hshf _ (hgs g hg)
        have := hc (.var g) (List.mem_flatMap.mpr ⟨g, hg, by simp [groupOf]⟩)
        rw [(rowFor_shown hp.named hρ.2 hsh).1, (rowFor_shown hp.named hσ.2 hsh).1] at this
        exact (same_iff (hρ.1.proper g) (hσ.1.proper g) (hty g (hfV _ (hgs g hg)) ρ σ hρ.1 hσ.1)).mp this
      · intro hag c hc
        obtain ⟨g, hg, hc⟩ := List.mem_flatMap.mp hc
        have hsh : Shown a.cc p.cols g := hshf _ (hgs g hg)
        obtain ⟨a1, a2⟩ := rowFor_shown hp.named hρ.2 hsh
        obtain ⟨b1, b2⟩ := rowFor_shown hp.named hσ.2 hsh
        unfold groupOf at hc
        rw [List.mem_cons] at hc
        rcases hc with rfl | hc
        · have e : namedRow (p.cols.map (·.2)) r (.var g) = namedRow (p.cols.map (·.2)) s (.var g) :=
            a1.trans (Eq.trans (congrArg (fun v => v.toSql.1) (hag g hg)) b1.symm)
          rw [e]; exact same_refl
        · split at hc
          · rename_i hu
            rw [List.mem_singleton] at hc
            subst hc
            have hu : (a.cc.knownTypeSet g).uniqueTag = none := by simpa using hu
            have e : namedRow (p.cols.map (·.2)) r (.varTag g) = namedRow (p.cols.map (·.2)) s (.varTag g) :=
              (a2 hu).trans (Eq.trans (congrArg (fun v : TypedValue => SqlValue.integer v.toSql.2) (hag g hg)) (b2 hu).symm)
            rw [e]; exact same_refl
          · cases hc
    generalize hK : (fun r => ((Sought.groups fs).flatMap (groupOf a.cc)).map (namedRow (p.cols.map (·.2)) r)) = key at hspec
    have hkey : ∀ {r s ρ σ}, (IsAnswer k.schema db.facts q inputs.values ρ ∧ RowFor a.cc p.cols r ρ) →
        (IsAnswer k.schema db.facts q inputs.values σ ∧ RowFor a.cc p.cols s σ) →
        (((key r).zip (key s)).all fun p => p.1.same p.2) = decide (Assign.Agree (Sought.groups fs) ρ σ) := by
      subst hK; exact hkey
    have hlen : ∀ r s, (key r).length = (key s).length := by subst hK; simp
    obtain ⟨k1, k2, k3⟩ := distinctRows_spec (inner.map key)
    rw [List.forall₂_map_left_iff] at hspec
    obtain ⟨γs, hγs⟩ := exists_forall₂ (l := distinctRows (inner.map key)) (R := fun kk γ => ∃ r0, r0 ∈ inner ∧ kk = key r0 ∧
        (IsAnswer k.schema db.facts q inputs.values γ ∧ RowFor a.cc p.cols r0 γ) ∧ γ ∈ ds) fun kk hkk => by
      obtain ⟨r0, hr0, e⟩ := List.mem_map.mp (k1 kk hkk)
      obtain ⟨d, hd, hrd⟩ := forall₂_left hds r0 hr0
      exact ⟨d, r0, hr0, e.symm, hrd, hd⟩
    have hgroup : ∀ {r0 γ}, (IsAnswer k.schema db.facts q inputs.values γ ∧ RowFor a.cc p.cols r0 γ) →
        List.Forall₂ (fun r d => IsAnswer k.schema db.facts q inputs.values d ∧ RowFor a.cc p.cols r d)
          (inner.filter fun r => ((key r).zip (key r0)).all fun p => p.1.same p.2)
          (ds.filter fun d => decide (Assign.Agree (Sought.groups fs) d γ)) :=
      fun hγ => forall₂_filter hds fun r d hrd => hkey hrd hγ
    have hself : ∀ {γ}, γ ∈ ds → γ ∈ ds.filter fun d => decide (Assign.Agree (Sought.groups fs) d γ) := by
      intro γ hγ
      rw [List.mem_filter]
      exact ⟨hγ, by simp [Assign.Agree]⟩
    have hfr : finishRows false ((fs.flatMap (outerOf a.cc)).map fun c => c.col.getD (.var [])) [] none out = out := rfl
    rw [hfr, List.filter_eq_self.mpr ?_] at hvs
    rotate_left
    · intro row hrow
      obtain ⟨kk, hkk, hrk⟩ := forall₂_right hspec row hrow
      obtain ⟨γ, -, r0, hr0, rfl, hγ, hγd⟩ := forall₂_left hγs kk hkk
      exact hkeep (fun e => by have := hself hγd; rw [e] at this; cases this) (hgroup hγ) (by subst hK; exact hrk)
    have hlk := lookupRows_spec hvs
    refine ⟨ds, γs, ⟨hans, honce, hall, ?_, ?_, ?_, ?_⟩⟩
    · refine forall₂_compose hγs hspec hlk ?_
      rintro kk γ row v ⟨r0, hr0, rfl, hγ, hγd⟩ hrow hv
      refine hone (hgroup hγ) ?_ ?_ (by subst hK; exact hrow) hv
      · intro _
        refine ⟨r0, ?_, hγ.2, hγ.1⟩
        rw [List.mem_filter]
        refine ⟨hr0, ?_⟩
        rw [hkey hγ hγ]
        simp [Assign.Agree]
      · intro d hd g hg
        rw [List.mem_filter, decide_eq_true_eq] at hd
        exact hd.2 g (mem_groups.mpr hg)
    · refine forall₂_pairwise hγs k3 ?_
      rintro kk kk' γ γ' ⟨r0, hr0, rfl, hγ, hγd⟩ ⟨r1, hr1, rfl, hγ', hγd'⟩ hns hag
      have : rowSame (key r1) (key r0) = true := by
        simp only [rowSame, Bool.and_eq_true, beq_iff_eq]
        refine ⟨hlen _ _, ?_⟩
        rw [hkey hγ' hγ, decide_eq_true_eq]
        exact fun x hx => (hag x hx).symm
      rw [this] at hns; cases hns
    · intro d hd
      obtain ⟨r, hrm, hrd⟩ := forall₂_right hds d hd
      obtain ⟨kk, hkk, hrk⟩ := k2 (key r) (List.mem_map.mpr ⟨r, hrm, rfl⟩)
      obtain ⟨γ, hγm, r0, hr0, rfl, hγ, hγd⟩ := forall₂_left hγs kk hkk
      refine ⟨γ, hγm, ?_⟩
      have : rowSame (key r) (key r0) = true := by
        rcases hrk with e | e
        · rw [e]; exact rowSame_refl _
        · exact e
      simp only [rowSame, Bool.and_eq_true] at this
      have h2 := this.2
      rw [hkey hrd hγ, decide_eq_true_eq] at h2
      exact h2
    · intro γ hγ
      obtain ⟨kk, -, r0, -, -, -, hγd⟩ := forall₂_right hγs γ hγ
      exact .inl hγd

end
end CC
end Mentat
