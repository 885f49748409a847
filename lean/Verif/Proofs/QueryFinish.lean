import Verif.Proofs.QueryClauses
/-
Finishing the clauses: the conditions added make the rows left those that stand for an assignment.
-/
namespace Mentat
namespace CC

/-! ### Maps -/

theorem get_filterKeys {K V : Type} [DecidableEq K] (m : AMap K V) (f : K → Bool) (k : K) :
    AMap.get (List.filter (fun p : K × V => f p.1) m : AMap K V) k = if f k then AMap.get m k else none := by
  induction m with
  | nil => simp
  | cons p m ih =>
    obtain ⟨a, v⟩ := p
    simp only [List.filter_cons]
    by_cases ha : f a = true
    · simp only [ha, if_true, AMap.get_cons, ih]
      by_cases e : a = k
      · subst e; simp [ha]
      · simp [e]
    · have ha : f a = false := by simpa using ha
      simp only [ha, Bool.false_eq_true, if_false, AMap.get_cons, ih]
      by_cases e : a = k
      · subst e; simp [ha]
      · simp [e]

theorem insertVar_perm {α : Type} (p : Var × α) : ∀ l : List (Var × α), (insertVar p l).Perm (p :: l)
  | [] => .refl _
  | q :: r => by
    unfold insertVar
    split
    · exact ((insertVar_perm p r).cons q).trans (.swap _ _ _)
    · exact .refl _

theorem sortVars_perm {α : Type} : ∀ m : AMap Var α, (sortVars m : List (Var × α)).Perm m
  | [] => .refl _
  | p :: m => (insertVar_perm p _).trans ((sortVars_perm m).cons p)

/-! ### Conditions -/

section
variable {db : Tables} {env : Env}

/-- Equality of columns holding values of a type. -/
theorem evalC_eqCol {q r : QA} {v w : TypedValue} {t : ValueType} (hq : cell env q = v.toSql.1)
    (hr : cell env r = w.toSql.1) (hv : v.valueType = t) (hw : w.valueType = t) (fq : Fits t q) (fr : Fits t r) :
    evalC db env (eqCol q r) = true ↔ v.toSql.1 = w.toSql.1 := by
  have hn : ∀ {u : TypedValue}, u.valueType = t → t = .ref ∨ t = .boolean → u.toSql.1.numeric = u.toSql.1 := by
    intro u hu ht
    rcases ht with rfl | rfl <;> cases u <;> simp [TypedValue.valueType] at hu <;> rfl
  have e1 : (SExpr.col q.1 q.2).eval env = v.toSql.1 := hq
  have e2 : (SExpr.col r.1 r.2).eval env = w.toSql.1 := hr
  have key : evalC db env (eqCol q r) = SqlOp.eval .eq v.toSql.1 w.toSql.1 := by
    simp only [eqCol, evalC, evalInfix, e1, e2, SExpr.integerAffinity]
    congr 1
    · split
      · rename_i h
        simp only [Bool.and_eq_true] at h
        exact hn hv (fr h.1)
      · rfl
    · split
      · rename_i h
        simp only [Bool.and_eq_true] at h
        exact hn hw (fq h.1)
      · rfl
  rw [key]
  simp only [SqlOp.eval, toSql_ne_null, or_self, if_false]
  exact sqlEq_same (by rw [hv, hw])

theorem mem_tags {l : List ValueType} {acc : List Nat} {n : Nat} :
    n ∈ l.foldl (fun acc t => if t.tag ∈ acc then acc else acc ++ [t.tag]) acc ↔ n ∈ acc ∨ ∃ t ∈ l, t.tag = n := by
  induction l generalizing acc with
  | nil => simp
  | cons t l ih =>
    simp only [List.foldl_cons]
    rw [ih]
    split
    · rename_i h
      constructor
      · rintro (h1 | ⟨u, h1, h2⟩)
        · exact .inl h1
        · exact .inr ⟨u, by simp [h1], h2⟩
      · rintro (h1 | ⟨u, h1, h2⟩)
        · exact .inl h1
        · rw [List.mem_cons] at h1
          rcases h1 with rfl | h1
          · exact .inl (h2 ▸ h)
          · exact .inr ⟨u, h1, h2⟩
    · constructor
      · rintro (h1 | ⟨u, h1, h2⟩)
        · rw [List.mem_append, List.mem_singleton] at h1
          rcases h1 with h1 | h1
          · exact .inl h1
          · exact .inr ⟨t, by simp, h1.symm⟩
        · exact .inr ⟨u, by simp [h1], h2⟩
      · rintro (h1 | ⟨u, h1, h2⟩)
        · exact .inl (by simp [h1])
        · rw [List.mem_cons] at h1
          rcases h1 with rfl | h1
          · exact .inl (by simp [h2])
          · exact .inr ⟨u, h1, h2⟩

theorem mem_list {ts : TypeSet} {t : ValueType} : t ∈ ts.list ↔ ts t = true := by
  simp [TypeSet.list, ValueType.mem_all]

/-- The column of tags has the tag. -/
theorem evalC_tag {al : Alias} {n m : Nat} (h : cell env (al, .tag) = .integer n) :
    evalC db env (.infix .eq (.col al .tag) (.const (.integer m))) = true ↔ n = m := by
  have h' : env.get al .tag = .integer n := h
  simp only [evalC, evalInfix, SExpr.eval, SExpr.integerAffinity, Col.integerAffinity, h', SqlValue.numeric,
    Bool.false_and, Bool.false_eq_true, if_false, Bool.not_false, Bool.and_true, if_true]
  simp only [SqlOp.eval, reduceCtorEq, or_self, if_false, eq_integer, decide_eq_true_eq]
  exact Int.ofNat_inj

theorem evalC_typeConstraint {al : Alias} {n m : Nat} (h : cell env (al, .tag) = .integer n) (o : Option (List Bool)) :
    evalC db env (typeConstraint al m o) = true ↔
      n = m ∧ ∀ affs, o = some affs → ∃ b ∈ affs, evalC db env (.typeCheck (.col al .v) b) = true := by
  cases o with
  | none => simp [typeConstraint, evalC_tag h]
  | some affs =>
    have e : evalC db env (typeConstraint al m (some affs)) =
        (evalC db env (.infix .eq (.col al .tag) (.const (.integer m))) &&
          evalAny db env (affs.map fun b => .typeCheck (.col al .v) b)) := by
      simp only [typeConstraint, evalC, evalAll, Bool.and_true]
    rw [e, Bool.and_eq_true, evalC_tag h, evalAny_iff]
    simp only [List.mem_map, Option.some.injEq, forall_eq']
    refine and_congr_right fun _ => ?_
    constructor
    · rintro ⟨c, ⟨b, hb, rfl⟩, hc⟩; exact ⟨b, hb, hc⟩
    · rintro ⟨b, hb, hc⟩; exact ⟨_, ⟨b, hb, rfl⟩, hc⟩

theorem evalC_or {cs : List Constraint} : evalC db env (.or cs) = evalAny db env cs := by rw [evalC]

theorem evalC_hasTypes_iff {al : Alias} {n : Nat} (h : cell env (al, .tag) = .integer n) (ts : TypeSet) :
    evalC db env (hasTypes al ts true) = true ↔ ∃ t, ts t = true ∧ t.tag = n ∧
      ∀ affs, (if ((ts.list.filter fun t => t.tag == n).filterMap ValueType.affinity).isEmpty ||
          ((ts.list.filter fun t => t.tag == n).filterMap ValueType.affinity).length == affinityCount n then none
        else some ((ts.list.filter fun t => t.tag == n).filterMap ValueType.affinity)) = some affs →
        ∃ b ∈ affs, evalC db env (.typeCheck (.col al .v) b) = true := by
  unfold hasTypes
  simp only [if_true]
  rw [evalC_or, evalAny_iff]
  constructor
  · rintro ⟨c, hc, he⟩
    rw [List.mem_map] at hc
    obtain ⟨m, hm, rfl⟩ := hc
    rw [evalC_typeConstraint h] at he
    obtain ⟨rfl, he⟩ := he
    rw [mem_tags] at hm
    rcases hm with hm | ⟨t, ht, hn⟩
    · simp at hm
    · exact ⟨t, mem_list.mp ht, hn, he⟩
  · rintro ⟨t, ht, rfl, he⟩
    refine ⟨_, List.mem_map.mpr ⟨t.tag, ?_, rfl⟩, ?_⟩
    · rw [mem_tags]; exact .inr ⟨t, mem_list.mpr ht, rfl⟩
    · rw [evalC_typeConstraint h]
      exact ⟨rfl, he⟩

theorem affinities (ts : TypeSet) :
    (ts.list.filter fun t => t.tag == 5).filterMap ValueType.affinity =
      (if ts .long then [false] else []) ++ (if ts .double then [true] else []) := by
  unfold TypeSet.list ValueType.all
  rw [List.filter_filter]
  cases h1 : ts .long <;> cases h2 : ts .double <;>
    simp [ValueType.tag, ValueType.affinity, h1, h2]

/-- A variable has one of the types: by the tag, and for numbers by the storage class. -/
theorem evalC_hasTypes {al : Alias} {w : TypedValue} (h : HoldsValue env al w) (ts : TypeSet) :
    evalC db env (hasTypes al ts true) = true ↔ ts w.valueType = true := by
  rw [evalC_hasTypes_iff h.tag]
  have hv : env.get al .v = w.toSql.1 := h.v
  have hcheck : ∀ b, evalC db env (.typeCheck (.col al .v) b) = true ↔
      (∃ n, w.toSql.1 = .integer n) ∧ b = false ∨ (∃ n, w.toSql.1 = .real n) ∧ b = true := by
    intro b
    simp only [evalC, SExpr.eval, hv]
    cases w.toSql.1 <;> cases b <;> simp
  simp only [hcheck]
  have hother : ∀ n, n ≠ 5 → (ts.list.filter fun t => t.tag == n).filterMap ValueType.affinity = [] := by
    intro n hn
    rw [List.filterMap_eq_nil_iff]
    intro t ht
    rw [List.mem_filter] at ht
    have h2 := ht.2
    simp only [beq_iff_eq] at h2
    cases t <;> simp [ValueType.tag] at h2 <;> first | rfl | (exact absurd h2.symm hn)
  have htag : ∀ {t u : ValueType}, t.tag = u.tag → t.tag ≠ 5 → t = u := by
    intro t u; cases t <;> cases u <;> simp [ValueType.tag]
  have e2 : w.toSql.2 = w.valueType.tag := toSql_tag w
  rw [e2]
  by_cases h5 : w.valueType.tag = 5
  · rw [h5, affinities]
    have hc : affinityCount 5 = 2 := by decide
    rw [hc]
    have hw : (∃ n, w = .long n) ∨ ∃ n, w = .double n := by
      cases w <;> simp [TypedValue.valueType, ValueType.tag] at h5
      · exact .inl ⟨_, rfl⟩
      · exact .inr ⟨_, rfl⟩
    have hts : (∃ t, ts t = true ∧ t.tag = 5) ↔ ts .long = true ∨ ts .double = true := by
      constructor
      · rintro ⟨t, h1, h2⟩
        cases t <;> simp [ValueType.tag] at h2
        · exact .inl h1
        · exact .inr h1
      · rintro (h1 | h1)
        · exact ⟨_, h1, rfl⟩
        · exact ⟨_, h1, rfl⟩
    have hsplit : ∀ P : Prop, (∃ t, ts t = true ∧ t.tag = 5 ∧ P) ↔ (ts .long = true ∨ ts .double = true) ∧ P := by
      intro P
      rw [← hts]
      constructor
      · rintro ⟨t, a, b, c⟩; exact ⟨⟨t, a, b⟩, c⟩
      · rintro ⟨⟨t, a, b⟩, c⟩; exact ⟨t, a, b, c⟩
    rw [hsplit]
    rcases hw with ⟨n, rfl⟩ | ⟨n, rfl⟩ <;> simp only [TypedValue.valueType, TypedValue.toSql] <;>
      cases h1 : ts .long <;> cases h2 : ts .double <;> simp
  · simp only [hother _ h5]
    simp only [List.isEmpty_nil, Bool.true_or, if_true, reduceCtorEq, false_implies, implies_true, and_true]
    constructor
    · rintro ⟨t, h1, h2⟩
      rw [← htag h2 (by rw [h2]; exact h5)]; exact h1
    · intro h1; exact ⟨_, h1, rfl⟩

/-- The tag of strings is theirs only. -/
theorem evalC_hasTypes_string {al : Alias} {ts : TypeSet} (h : cell env (al, .tag) = .integer ValueType.string.tag)
    (hts : ts .string = false) : evalC db env (hasTypes al ts true) = false := by
  cases he : evalC db env (hasTypes al ts true) with
  | false => rfl
  | true =>
    rw [evalC_hasTypes_iff h] at he
    obtain ⟨t, h1, h2, -⟩ := he
    cases t <;> simp [ValueType.tag] at h2
    rw [h1] at hts; cases hts

/-! ### The loop over the required types -/

/-- The requirement as the loop checks it. -/
def ReqAt (db : Tables) (env : Env) (cc : CC) (x : Var) (ts : TypeSet) : Prop :=
  match AMap.get cc.known x with
  | some s => ∀ t, s = TypeSet.one t → ts t = true
  | none => ∀ q, AMap.get cc.extracted x = some q → evalC db env (hasTypes q.1 ts true) = true

theorem hasTypes_empty {al : Alias} {ts : TypeSet} (h : ts.isEmpty = true) :
    evalC db env (hasTypes al ts true) = false := by
  have hl : ts.list = [] := by simpa [TypeSet.isEmpty] using h
  unfold hasTypes
  simp only [if_true]
  rw [evalC_or, hl]
  simp [evalAny]

theorem one_subset {t : ValueType} {ts : TypeSet} : (TypeSet.one t).subset ts = ts t := by
  cases h : ts t with
  | true => rw [TypeSet.subset, List.all_eq_true]; intro u _; simp only [TypeSet.one]; by_cases e : u = t <;> simp_all
  | false =>
    cases hs : (TypeSet.one t).subset ts with
    | false => rfl
    | true =>
      rw [TypeSet.subset, List.all_eq_true] at hs
      have := hs t (ValueType.mem_all t)
      simp [TypeSet.one, h] at this

theorem one_disjoint {t : ValueType} {ts : TypeSet} : (TypeSet.one t).disjoint ts = !ts t := by
  unfold TypeSet.disjoint
  cases h : ts t with
  | false =>
    simp only [Bool.not_false]
    rw [TypeSet.isEmpty_iff]
    intro u
    simp only [TypeSet.inter, TypeSet.one]
    by_cases e : u = t <;> simp_all
  | true =>
    cases hs : ((TypeSet.one t).inter ts).isEmpty with
    | false => rfl
    | true =>
      rw [TypeSet.isEmpty_iff] at hs
      have := hs t
      simp [TypeSet.inter, TypeSet.one, h] at this

/-- What finishing does not change. -/
structure Kept (cc cc' : CC) : Prop where
  counter : cc'.counter = cc.counter
  tables : cc'.tables = cc.tables
  computed : cc'.computed = cc.computed
  panics : cc'.panics = cc.panics
  colb : cc'.colb = cc.colb
  inputs : cc'.inputs = cc.inputs
  vals : cc'.vals = cc.vals
  extracted : ∀ x, AMap.get cc'.extracted x = AMap.get cc.extracted x
  wheres : ∃ ws, cc'.wheres = cc.wheres ++ ws
  empty : cc'.empty = false → cc.empty = false

theorem Kept.trans {a b c : CC} (h : Kept a b) (h' : Kept b c) : Kept a c :=
  ⟨h'.counter.trans h.counter, h'.tables.trans h.tables, h'.computed.trans h.computed, h'.panics.trans h.panics,
    h'.colb.trans h.colb, h'.inputs.trans h.inputs, h'.vals.trans h.vals,
    fun x => (h'.extracted x).trans (h.extracted x), by
      obtain ⟨w, hw⟩ := h.wheres
      obtain ⟨w', hw'⟩ := h'.wheres
      exact ⟨w ++ w', by rw [hw', hw, List.append_assoc]⟩, fun e => h.empty (h'.empty e)⟩

theorem Kept.refl (cc : CC) : Kept cc cc := ⟨rfl, rfl, rfl, rfl, rfl, rfl, rfl, fun _ => rfl, ⟨[], by simp⟩, id⟩

theorem Kept.stables {a b : CC} (h : Kept a b) : b.stables = a.stables := by
  unfold CC.stables; rw [h.tables, h.computed]

theorem kept_narrowTypes (cc : CC) (x : Var) (ts : TypeSet) : Kept cc (cc.narrowTypes x ts) := by
  have g := grow_narrowTypes cc x ts
  unfold CC.narrowTypes at g ⊢
  split
  · exact ⟨rfl, rfl, rfl, rfl, rfl, rfl, rfl, fun _ => rfl, ⟨[], by simp [markEmpty]⟩, fun h => by simp [markEmpty] at h⟩
  · cases AMap.get cc.known x with
    | none => exact ⟨rfl, rfl, rfl, rfl, rfl, rfl, rfl, fun _ => rfl, ⟨[], by simp⟩, id⟩
    | some s =>
      simp only
      split
      · exact ⟨rfl, rfl, rfl, rfl, rfl, rfl, rfl, fun _ => rfl, ⟨[], by simp [markEmpty]⟩, fun h => by simp [markEmpty] at h⟩
      · exact ⟨rfl, rfl, rfl, rfl, rfl, rfl, rfl, fun _ => rfl, ⟨[], by simp⟩, id⟩

theorem kept_addWhere (cc : CC) (c : Constraint) : Kept cc (cc.addWhere c) :=
  ⟨rfl, rfl, rfl, rfl, rfl, rfl, rfl, fun _ => rfl, ⟨[c], rfl⟩, id⟩

theorem kept_markEmpty (cc : CC) : Kept cc cc.markEmpty :=
  ⟨rfl, rfl, rfl, rfl, rfl, rfl, rfl, fun _ => rfl, ⟨[], by simp [markEmpty]⟩, fun h => by simp [markEmpty] at h⟩

theorem narrow_empty {cc : CC} {x : Var} {ts : TypeSet} (hk : AMap.get cc.known x = none) :
    (cc.narrowTypes x ts).empty = (cc.empty || ts.isEmpty) ∧ (cc.narrowTypes x ts).wheres = cc.wheres := by
  unfold CC.narrowTypes
  cases ts.isEmpty <;> simp [hk, markEmpty]

theorem processLoop_iff : ∀ (l : List (Var × TypeSet)) {cc cc' : CC}, (l.map Prod.fst).Nodup →
    (∀ p ∈ l, ∀ s, AMap.get cc.known p.1 = some s → ∃ t, s = TypeSet.one t) → cc.processLoop l = .ok cc' →
    Kept cc cc' ∧
    (cc'.empty = false → ∀ x, AMap.get cc'.known x = AMap.get cc.known x ∨
      ∃ ts, (x, ts) ∈ l ∧ AMap.get cc'.known x = some ts) ∧
    (cc'.empty = false → ∀ p ∈ l, AMap.get cc.known p.1 = none → ∃ q, AMap.get cc.extracted p.1 = some q) ∧
    ∀ env, (cc'.empty = false ∧ evalAll db env cc'.wheres = true ↔
      cc.empty = false ∧ evalAll db env cc.wheres = true ∧ ∀ p ∈ l, ReqAt db env cc p.1 p.2)
  | [], cc, cc', _, _, h => by
    obtain rfl := Res.ok.inj h
    exact ⟨Kept.refl _, fun _ _ => .inl rfl, by simp, fun _ => by simp⟩
  | (x, ts) :: l, cc, cc', hnd, hu, h => by
    simp only [List.map_cons, List.nodup_cons] at hnd
    have hu' : ∀ p ∈ l, ∀ s, AMap.get cc.known p.1 = some s → ∃ t, s = TypeSet.one t := fun p hp => hu p (by simp [hp])
    rw [processLoop] at h
    cases hk : AMap.get cc.known x with
    | some s =>
      obtain ⟨t, rfl⟩ := hu (x, ts) (by simp) s hk
      rw [hk] at h
      simp only [one_disjoint, one_subset] at h
      have hreq : ∀ env, ReqAt db env cc x ts ↔ ts t = true := by
        intro env
        simp only [ReqAt, hk]
        exact ⟨fun h => h t rfl, fun h u hu => by rw [← one_inj hu]; exact h⟩
      cases ht : ts t with
      | false =>
        rw [ht] at h
        simp only [Bool.not_false, if_true] at h
        obtain rfl := Res.ok.inj h
        refine ⟨kept_markEmpty _, fun h => by simp [markEmpty] at h, fun h => by simp [markEmpty] at h, fun env => ?_⟩
        simp only [markEmpty, Bool.true_eq_false, false_and, false_iff, not_and]
        intro _ _ hall
        have := (hreq env).mp (hall (x, ts) (by simp))
        rw [ht] at this; cases this
      | true =>
        rw [ht] at h
        simp only [Bool.not_true, Bool.false_eq_true, if_false, if_true] at h
        obtain ⟨h1, h2, hx, h3⟩ := processLoop_iff l hnd.2 hu' h
        refine ⟨h1, fun he y => (h2 he y).imp id fun ⟨us, hus, e⟩ => ⟨us, by simp [hus], e⟩, ?_, fun env => ?_⟩
        · intro he p hp hpk
          rw [List.mem_cons] at hp
          rcases hp with rfl | hp
          · rw [hk] at hpk; cases hpk
          · exact hx he p hp hpk
        rw [h3]
        refine and_congr_right fun _ => and_congr_right fun _ => ?_
        simp only [List.forall_mem_cons, hreq, ht, true_and]
    | none =>
      rw [hk] at h
      simp only at h
      have hkept := kept_narrowTypes cc x ts
      have hne := narrow_empty (ts := ts) hk
      have hkn : ∀ y, x ≠ y → AMap.get (cc.narrowTypes x ts).known y = AMap.get cc.known y :=
        (narrowTypes_same cc x ts).2.2.2
      have hkx : (cc.narrowTypes x ts).empty = false → AMap.get (cc.narrowTypes x ts).known x = some ts := by
        intro he
        unfold CC.narrowTypes at he ⊢
        split
        · rename_i hte; rw [if_pos hte] at he; simp [markEmpty] at he
        · simp [hk]
      cases hx : AMap.get (cc.narrowTypes x ts).extracted x with
      | none => rw [hx] at h; cases h
      | some q =>
        rw [hx] at h
        simp only at h
        have hmem : ∀ p ∈ l, x ≠ p.1 := fun p hp e => hnd.1 (e ▸ List.mem_map_of_mem hp)
        obtain ⟨h1, h2, hxx, h3⟩ := processLoop_iff l hnd.2 (by
          intro p hp s hs
          exact hu' p hp s (by rw [← hkn p.1 (hmem p hp)]; exact hs)) h
        have hk2 := hkept.trans (kept_addWhere _ (hasTypes q.1 ts true))
        refine ⟨hk2.trans h1, ?_, ?_, fun env => ?_⟩
        · intro he y
          rcases h2 he y with h4 | ⟨us, hus, e⟩
          · by_cases e : x = y
            · subst e
              refine .inr ⟨ts, by simp, ?_⟩
              rw [h4]
              exact hkx (h1.empty he)
            · left; rw [h4]; exact hkn y e
          · exact .inr ⟨us, by simp [hus], e⟩
        · intro he p hp hpk
          rw [List.mem_cons] at hp
          rcases hp with rfl | hp
          · exact ⟨q, by rw [← hkept.extracted]; exact hx⟩
          · obtain ⟨q', hq'⟩ := hxx he p hp (by
              show AMap.get (cc.narrowTypes x ts).known p.1 = none
              rw [hkn p.1 (hmem p hp)]; exact hpk)
            exact ⟨q', by rw [← hkept.extracted]; exact hq'⟩
        · rw [h3]
          rw [hkept.extracted] at hx
          have hreqx : ReqAt db env cc x ts ↔ evalC db env (hasTypes q.1 ts true) = true := by
            simp only [ReqAt, hk]
            exact ⟨fun h => h q hx, fun h q' hq' => by rw [hx] at hq'; cases hq'; exact h⟩
          have hreql : ∀ p ∈ l, ReqAt db env ((cc.narrowTypes x ts).addWhere (hasTypes q.1 ts true)) p.1 p.2 ↔
              ReqAt db env cc p.1 p.2 := by
            intro p hp
            unfold ReqAt
            have e1 : AMap.get ((cc.narrowTypes x ts).addWhere (hasTypes q.1 ts true)).known p.1 = AMap.get cc.known p.1 :=
              hkn p.1 (hmem p hp)
            have e2 : ((cc.narrowTypes x ts).addWhere (hasTypes q.1 ts true)).extracted = cc.extracted :=
              (narrowTypes_same cc x ts).2.1
            rw [e1, e2]
          simp only [addWhere, evalAll_append, hne.1, hne.2, evalAll, Bool.and_true, Bool.and_eq_true,
            List.forall_mem_cons, hreqx, Bool.or_eq_false_iff]
          constructor
          · rintro ⟨⟨h5, -⟩, ⟨h6, h7⟩, h8⟩
            exact ⟨h5, h6, h7, fun p hp => (hreql p hp).mp (h8 p hp)⟩
          · rintro ⟨h5, h6, h7, h8⟩
            refine ⟨⟨h5, ?_⟩, ⟨h6, h7⟩, fun p hp => (hreql p hp).mpr (h8 p hp)⟩
            cases ht : ts.isEmpty with
            | false => rfl
            | true => rw [hasTypes_empty ht] at h7; cases h7

end

/-! ### Decoding -/

/-- A value of each type. -/
def anyValue : ValueType → TypedValue
  | .ref => .ref 0
  | .boolean => .boolean false
  | .instant => .instant 0
  | .long => .long 0
  | .double => .double 0
  | .string => .string []
  | .keyword => .keyword ⟨[], ['a']⟩
  | .uuid => .uuid 0

theorem anyValue_type (t : ValueType) : (anyValue t).valueType = t := by cases t <;> rfl

theorem anyValue_proper (t : ValueType) : (anyValue t).Proper := by
  cases t <;> simp [anyValue, TypedValue.Proper, ValidPart]

section
variable {L : Var → Prop} {db : Tables} {cc cc' : CC}

theorem kept_finish (hi : Inv L cc) (h : cc.finish = .ok cc') : Kept cc cc' ∧
    (cc'.empty = false → ∀ x, AMap.get cc'.known x = AMap.get cc.known x ∨
      ∃ ts, AMap.get cc.required x = some ts ∧ AMap.get cc'.known x = some ts) ∧
    (cc'.empty = false → ∀ x ts, AMap.get cc.required x = some ts → AMap.get cc.known x = none →
      ∃ q, AMap.get cc.extracted x = some q) ∧
    ∀ env, (cc'.empty = false ∧ evalAll db env cc'.wheres = true ↔
      cc.empty = false ∧ evalAll db env cc.expand.wheres = true ∧
        ∀ x ts, AMap.get cc.required x = some ts → ReqAt db env cc x ts) := by
  have hext : ∀ x, AMap.get cc.expand.prune.extracted x = AMap.get cc.extracted x := by
    intro x
    show AMap.get (List.filter (fun p : Var × QA => !(match AMap.get cc.known p.1 with
      | some s => s.isUnit
      | none => false)) cc.extracted) x = _
    rw [get_filterKeys cc.extracted (fun y => !(match AMap.get cc.known y with
      | some s => s.isUnit
      | none => false)) x]
    cases hx : AMap.get cc.extracted x with
    | none => simp
    | some q => simp [(hi.loose x (hi.tags x q hx)).1]
  have hperm := sortVars_perm cc.required
  have hmem : ∀ x ts, (x, ts) ∈ sortVars cc.required ↔ AMap.get cc.required x = some ts := by
    intro x ts
    rw [hperm.mem_iff]
    exact ⟨fun h => AMap.mem_get hi.wfReq h, AMap.get_some_mem⟩
  have hw : ∃ ws, cc.expand.prune.wheres = cc.wheres ++ ws := ⟨_, rfl⟩
  unfold finish processRequired at h
  split at h
  · rename_i he
    obtain rfl := Res.ok.inj h
    have he' : cc.empty = true := he
    refine ⟨⟨rfl, rfl, rfl, rfl, rfl, rfl, rfl, hext, hw, id⟩, fun h => absurd h (by simp [prune, expand, he']),
      fun h => absurd h (by simp [prune, expand, he']), fun env => ?_⟩
    simp [prune, expand, he']
  · rename_i he
    have he' : cc.empty = false := by
      cases hc : cc.empty with
      | false => rfl
      | true => exact absurd hc he
    have hnd : ((sortVars cc.required).map Prod.fst).Nodup := (hperm.map Prod.fst).nodup_iff.mpr hi.wfReq
    have hk0 : Kept cc cc.expand.prune := ⟨rfl, rfl, rfl, rfl, rfl, rfl, rfl, hext, hw, id⟩
    obtain ⟨h1, h2, hxx, h3⟩ := processLoop_iff (db := db) (cc := cc.expand.prune) (sortVars cc.required) hnd (fun p _ s hs => hi.unit he' p.1 s hs) h
    refine ⟨hk0.trans h1, ?_, ?_, fun env => ?_⟩
    · intro hc x
      rcases h2 hc x with h4 | ⟨ts, hts, h4⟩
      · exact .inl h4
      · exact .inr ⟨ts, (hmem x ts).mp hts, h4⟩
    · intro hc x ts hx hk
      obtain ⟨q, hq⟩ := hxx hc (x, ts) ((hmem x ts).mpr hx) hk
      exact ⟨q, by rw [← hext]; exact hq⟩
    · rw [h3 env]
      refine and_congr Iff.rfl (and_congr Iff.rfl ?_)
      constructor
      · intro h5 x ts hx
        have := h5 (x, ts) ((hmem x ts).mpr hx)
        unfold ReqAt at this ⊢
        rw [hext] at this
        exact this
      · rintro h5 ⟨x, ts⟩ hp
        have := h5 x ts ((hmem x ts).mp hp)
        unfold ReqAt at this ⊢
        rw [hext]
        exact this

theorem expand_iff (hi : Inv L cc) (env : Env) : evalAll db env cc.expand.wheres = true ↔
    evalAll db env cc.wheres = true ∧ ∀ x q r, AMap.get cc.colb x = some (q :: r) →
      ∀ q' ∈ r, evalC db env (eqCol q q') = true := by
  simp only [expand, evalAll_append, Bool.and_eq_true]
  refine and_congr_right fun _ => ?_
  rw [evalAll_iff]
  constructor
  · intro h x q r hx q' hq'
    refine h _ (List.mem_flatMap.mpr ⟨(x, q :: r), AMap.get_some_mem hx, ?_⟩)
    exact List.mem_map_of_mem hq'
  · intro h c hc
    obtain ⟨⟨x, qs⟩, hp, hc⟩ := List.mem_flatMap.mp hc
    cases qs with
    | nil => simp at hc
    | cons q r =>
      obtain ⟨q', hq', rfl⟩ := List.mem_map.mp hc
      exact h x q r (AMap.mem_get hi.wfCols hp) q' hq'

/-- The rows left are those that stand for an assignment. -/
theorem finish_iff (hi : Inv L cc) (hc : ColsKnown L cc) (h : cc.finish = .ok cc') {env : Env} (hj : JAt L db cc env) :
    cc'.empty = false ∧ evalAll db env cc'.wheres = true ↔ ∃ ρ : Assign, ρ.Proper ∧ At db cc env ρ := by
  obtain ⟨-, -, hxx, hiff⟩ := kept_finish (db := db) hi h
  have hiff := hiff env
  rw [expand_iff hi] at hiff
  constructor
  · intro hlive
    have hnone := hxx hlive.1
    obtain ⟨he, ⟨hw, heq⟩, hreq⟩ := hiff.mp hlive
    have hno : ∀ x, AMap.get cc.known x = none → AMap.get cc.extracted x = none → AMap.get cc.required x = none := by
      intro x hk hx
      cases hr : AMap.get cc.required x with
      | none => rfl
      | some ts =>
        obtain ⟨q, hq⟩ := hnone x ts hr hk
        rw [hx] at hq; cases hq
    have hcells := hj he hw
    -- the value of a variable
    have hval : ∀ x, ∃ v : TypedValue, v.Proper ∧
        (∀ w, AMap.get cc.vals x = some w → v = w) ∧
        (∀ ts, AMap.get cc.known x = some ts → ts v.valueType = true) ∧
        (∀ ts, AMap.get cc.required x = some ts → ts v.valueType = true) ∧
        (∀ qs, AMap.get cc.colb x = some qs → ∀ q ∈ qs, cell env q = v.toSql.1) ∧
        (∀ q, AMap.get cc.extracted x = some q → cell env q = .integer v.toSql.2) := by
      intro x
      by_cases hL : L x
      · obtain ⟨hk, hv, -⟩ := hi.loose x hL
        cases hcol : AMap.get cc.colb x with
        | none =>
          have hx : AMap.get cc.extracted x = none := by
            cases hx : AMap.get cc.extracted x with
            | none => rfl
            | some q =>
              obtain ⟨qs, hqs⟩ := hc.tagged he x q hx
              rw [hcol] at hqs; cases hqs
          exact ⟨anyValue .ref, anyValue_proper _, by simp [hv], by simp [hk], by simp [hno x hk hx], by simp, by simp [hx]⟩
        | some qs =>
          obtain ⟨al, rfl, hx, hor⟩ := (hcells x qs hcol).loose hL
          have hq : ∀ ts, AMap.get cc.required x = some ts → evalC db env (hasTypes al ts true) = true := by
            intro ts hts
            have := hreq x ts hts
            simp only [ReqAt, hk] at this
            exact this _ hx
          rcases hor with ⟨w, hw1, hw2⟩ | ⟨htag, ts, hts, hno⟩
          · refine ⟨w, hw1, by simp [hv], by simp [hk], ?_, ?_, ?_⟩
            · intro ts hts
              exact (evalC_hasTypes hw2 ts).mp (hq ts hts)
            · intro qs hqs q hq'
              cases hqs
              rw [List.mem_singleton] at hq'
              subst hq'
              exact hw2.v
            · intro q hq'
              rw [hx] at hq'; cases hq'
              exact hw2.tag
          · have := hq ts hts
            rw [evalC_hasTypes_string htag hno] at this
            cases this
      · have hx : AMap.get cc.extracted x = none := by
          cases hx : AMap.get cc.extracted x with
          | none => rfl
          | some q => exact absurd (hi.tags x q hx) hL
        cases hcol : AMap.get cc.colb x with
        | none =>
          have hr : ∀ t ts, AMap.get cc.known x = some (TypeSet.one t) → AMap.get cc.required x = some ts → ts t = true := by
            intro t ts hk hts
            have := hreq x ts hts
            simp only [ReqAt, hk] at this
            exact this t rfl
          cases hv : AMap.get cc.vals x with
          | some v =>
            have hk := hi.valsKnown he x v hv
            refine ⟨v, hi.valsProper x v hv, by simp, ?_, fun ts hts => hr _ ts hk hts, by simp, by simp [hx]⟩
            intro ts hts
            rw [hk] at hts; cases hts; simp [TypeSet.one]
          | none =>
            cases hk : AMap.get cc.known x with
            | none => exact ⟨anyValue .ref, anyValue_proper _, by simp, by simp, by simp [hno x hk hx], by simp, by simp [hx]⟩
            | some s =>
              obtain ⟨t, rfl⟩ := hi.unit he x s hk
              refine ⟨anyValue t, anyValue_proper _, by simp, ?_, ?_, by simp, by simp [hx]⟩
              · intro ts hts; cases hts; simp [TypeSet.one, anyValue_type]
              · intro ts hts; rw [anyValue_type]; exact hr t ts hk hts
        | some qs =>
          obtain ⟨t, hk, hcell, hhead⟩ := (hcells x qs hcol).typed hL
          obtain ⟨t', hk', hfit⟩ := hc.known he x qs hcol hL
          rw [hk] at hk'
          obtain rfl := one_inj (Option.some.inj hk')
          have hr : ∀ ts, AMap.get cc.required x = some ts → ts t = true := by
            intro ts hts
            have := hreq x ts hts
            simp only [ReqAt, hk] at this
            exact this t rfl
          cases qs with
          | nil => exact absurd rfl (hi.colsNe x [] hcol)
          | cons q r =>
            obtain ⟨w, hwp, hwt, hwc⟩ := hcell q (by simp)
            have hall : ∀ q' ∈ q :: r, cell env q' = w.toSql.1 := by
              intro q' hq'
              rw [List.mem_cons] at hq'
              rcases hq' with rfl | hq'
              · exact hwc
              · obtain ⟨w', hwp', hwt', hwc'⟩ := hcell q' (by simp [hq'])
                have := (evalC_eqCol (db := db) hwc hwc' hwt hwt' (hfit q (by simp)) (hfit q' (by simp [hq']))).mp (heq x q r hcol q' hq')
                rw [hwc', this]
            refine ⟨w, hwp, ?_, ?_, ?_, ?_, by simp [hx]⟩
            · intro v hv
              have h1 := hhead v hv q rfl
              have h2 := hi.valsKnown he x v hv
              rw [hk] at h2
              refine toSql_inj hwp (hi.valsProper x v hv) ?_ (by rw [← hwc, h1])
              rw [hwt]; exact one_inj (Option.some.inj h2)
            · intro ts hts
              rw [hk] at hts; cases hts; simp [TypeSet.one, hwt]
            · intro ts hts; rw [hwt]; exact hr ts hts
            · intro qs hqs q' hq'; cases hqs; exact hall q' hq'
    exact ⟨fun x => Classical.choose (hval x), fun x => (Classical.choose_spec (hval x)).1, he,
      fun x => (Classical.choose_spec (hval x)).2.1, fun x => (Classical.choose_spec (hval x)).2.2.1,
      fun x => (Classical.choose_spec (hval x)).2.2.2.1, hw, fun x => (Classical.choose_spec (hval x)).2.2.2.2.1,
      fun x => (Classical.choose_spec (hval x)).2.2.2.2.2⟩
  · rintro ⟨ρ, hρ, hat⟩
    have he := hat.live
    have hcells := hj he hat.wh
    refine hiff.mpr ⟨he, ⟨hat.wh, ?_⟩, ?_⟩
    · intro x q r hcol q' hq'
      by_cases hL : L x
      · obtain ⟨al, hqs, -⟩ := (hcells x _ hcol).loose hL
        simp only [List.cons.injEq] at hqs
        rw [hqs.2] at hq'; cases hq'
      · obtain ⟨t, hk, hfit⟩ := hc.known he x _ hcol hL
        have ht : (ρ x).valueType = t := by
          have := hat.known x _ hk
          simpa [TypeSet.one] using this
        exact (evalC_eqCol (hat.cols x _ hcol q (by simp)) (hat.cols x _ hcol q' (by simp [hq'])) ht ht
          (hfit q (by simp)) (hfit q' (by simp [hq']))).mpr rfl
    · intro x ts hts
      have hty := hat.req x ts hts
      unfold ReqAt
      cases hk : AMap.get cc.known x with
      | some s =>
        simp only
        rintro t rfl
        have := hat.known x _ hk
        simp only [TypeSet.one, decide_eq_true_eq] at this
        rw [← this]; exact hty
      | none =>
        simp only
        intro q hq
        have hL := hi.tags x q hq
        obtain ⟨qs, hcol⟩ := hc.tagged he x q hq
        obtain ⟨al, rfl, hx, hor⟩ := (hcells x qs hcol).loose hL
        rw [hq] at hx
        cases hx
        have hcv := hat.cols x _ hcol (al, .v) (by simp)
        have htg := hat.tags x _ hq
        exact (evalC_hasTypes ⟨hcv, htg⟩ ts).mpr hty


end
end CC
end Mentat
