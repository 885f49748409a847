import Verif.Props.QueryExamples
/-
C49: `or` and `or-join` mean union.
-/
namespace Mentat
open CC

theorem satArm_iff {s : Schema} {f : Facts} {ρ : Assign} {arm : OrClause} :
    SatArm s f ρ arm ↔ SatAll s f ρ arm.list := by
  cases arm <;> simp [SatArm, OrClause.list, SatAll]

section
variable {fl : Floats} {k : Known} {L : Var → Prop} {db : Tables} {q : FindQuery} {inputs : Inputs} {xs : List Var}
  {r : QResult}

/-- The variables a disjunction keeps to itself: those in its arms that it does not list. -/
def Own (unify : UnifyVars) (arms : List OrClause) (x : Var) : Prop :=
  ∃ vs, unify = some vs ∧ x ∈ OrClause.varsAll arms ∧ x ∉ vs

/-- An assignment satisfies clauses with an `or` among them when, but for the variables the `or` keeps to
itself, it is one that satisfies the others and all clauses of an arm. -/
theorem satAll_or {s : Schema} {f : Facts} {ρ : Assign} (hρ : ρ.Proper) {cs ds : List WhereClause} {unify : UnifyVars}
    {arms : List OrClause} (hown : ∀ x, Own unify arms x → ∀ c ∈ cs ++ ds, x ∉ c.vars) :
    SatAll s f ρ (cs ++ .or unify arms :: ds) ↔ ∃ σ : Assign, σ.Proper ∧ (∀ x, σ x = ρ x ∨ Own unify arms x) ∧
      ∃ arm ∈ arms, SatAll s f σ (cs ++ arm.list ++ ds) := by
  have hrest : ∀ {σ : Assign}, σ.Proper → (∀ x, σ x = ρ x ∨ Own unify arms x) → ∀ c ∈ cs ++ ds, Sat s f σ c ↔ Sat s f ρ c := by
    intro σ hσ h c hc
    refine sat_congr c hσ hρ fun x hx => (h x).resolve_right fun ho => hown x ho c hc hx
  simp only [satAll_iff, List.mem_append, List.mem_cons] at hrest ⊢
  constructor
  · intro h
    have hor := h (.or unify arms) (.inr (.inl rfl))
    have key : ∃ σ : Assign, σ.Proper ∧ (∀ x, σ x = ρ x ∨ Own unify arms x) ∧ SatAny s f σ arms := by
      cases unify with
      | none => exact ⟨ρ, hρ, fun _ => .inl rfl, by simpa only [Sat] using hor⟩
      | some vs =>
        simp only [Sat] at hor
        obtain ⟨ρ', h1, h2, h3⟩ := hor
        classical
        have hσ : Assign.Proper fun x => if Own (some vs) arms x then ρ' x else ρ x := by
          intro x
          simp only
          split
          · exact h1 x
          · exact hρ x
        refine ⟨_, hσ, fun x => ?_, (satAny_congr arms hσ h1 fun x hx => ?_).mpr h3⟩
        · by_cases ho : Own (some vs) arms x
          · exact .inr ho
          · exact .inl (if_neg ho)
        · by_cases hv : x ∈ vs
          · rw [if_neg]
            · exact (h2 x hv).symm
            · rintro ⟨_, e, -, hn⟩
              exact hn (Option.some.inj e ▸ hv)
          · exact if_pos ⟨vs, rfl, hx, hv⟩
    obtain ⟨σ, h1, h2, h3⟩ := key
    obtain ⟨arm, ha, hs⟩ := satAny_iff.mp h3
    rw [satArm_iff, satAll_iff] at hs
    refine ⟨σ, h1, h2, arm, ha, ?_⟩
    rintro c ((hc | hc) | hc)
    · exact (hrest h1 h2 c (.inl hc)).mpr (h c (.inl hc))
    · exact hs c hc
    · exact (hrest h1 h2 c (.inr hc)).mpr (h c (.inr (.inr hc)))
  · rintro ⟨σ, h1, h2, arm, ha, h⟩ c (hc | rfl | hc)
    · exact (hrest h1 h2 c (.inl hc)).mp (h c (.inl (.inl hc)))
    · have hany : SatAny s f σ arms := by
        refine satAny_iff.mpr ⟨arm, ha, ?_⟩
        rw [satArm_iff, satAll_iff]
        exact fun c hc => h c (.inl (.inr hc))
      cases unify with
      | none =>
        obtain rfl : σ = ρ := funext fun x => (h2 x).resolve_right (by rintro ⟨_, h, -⟩; cases h)
        simpa only [Sat] using hany
      | some vs =>
        simp only [Sat]
        refine ⟨σ, h1, fun x hx => (h2 x).resolve_right ?_, hany⟩
        rintro ⟨_, e, -, hn⟩
        exact hn (Option.some.inj e ▸ hx)
    · exact (hrest h1 h2 c (.inr hc)).mp (h c (.inr hc))

/-- C49, for the queries treated: with an `or` or an `or-join` anywhere among the clauses, the rows are those
of assignments that satisfy the rest and at least one arm.  The variables an `or-join` keeps to itself are
not met elsewhere.  What is missing: arms that give a variable different types, arms that bind a variable
without knowing its type (see the cases below in which these fail), and, inside of arms and negations,
`or-join`s with variables of their own. -/
theorem C49_or_partial {cs ds : List WhereClause} {unify : UnifyVars} {arms : List OrClause}
    (ht : Treated k db L q inputs xs) (hf : q.find = .rel (xs.map .var)) (hlim : q.limit = .none)
    (hc : q.clauses = cs ++ .or unify arms :: ds)
    (hown : ∀ x, Own unify arms x → x ∉ xs ∧ x ∉ q.inVars ∧ ∀ c ∈ cs ++ ds, x ∉ c.vars)
    (hL : ∀ x ∈ xs, ¬ L x) (h : runQuery fl k db q inputs = .ok r) :
    ∃ rows : List (List TypedValue), r = .rel xs.length rows.flatten ∧ ∀ row, row ∈ rows ↔
      ∃ ρ : Assign, row = xs.map ρ ∧ ρ.Proper ∧ (∀ x ∈ q.inVars, AMap.get inputs.values x = some (ρ x)) ∧
        ∃ arm ∈ arms, SatAll k.schema db.facts ρ (cs ++ arm.list ++ ds) := by
  obtain ⟨rows, h1, h2, -, h4, -⟩ := C45_rows_partial ht hf hlim h
  refine ⟨rows, h1, fun row => ⟨fun hr => ?_, ?_⟩⟩
  · obtain ⟨ρ, hρ, rfl⟩ := h2 row hr
    have hs := hρ.sat
    rw [hc, satAll_or hρ.proper fun x hx => (hown x hx).2.2] at hs
    obtain ⟨σ, g1, g2, g3⟩ := hs
    refine ⟨σ, List.map_congr_left fun x hx => ?_, g1, fun x hx => ?_, g3⟩
    · exact ((g2 x).resolve_right fun ho => (hown x ho).1 hx).symm
    · rw [(g2 x).resolve_right fun ho => (hown x ho).2.1 hx]
      exact hρ.inputs x hx
  · rintro ⟨ρ, rfl, g0, gi, g1⟩
    refine h4 hL _ ⟨ρ, ⟨g0, gi, ?_⟩, rfl⟩
    rw [hc, satAll_or g0 fun x hx => (hown x hx).2.2]
    exact ⟨ρ, g0, fun _ => .inl rfl, g1⟩

/-! ### The queries with one arm each -/

/-- What is assumed of the query holds for the queries with the clauses of one arm in place of the `or`. -/
theorem Treated.arm {cs ds : List WhereClause} {unify : UnifyVars} {arms : List OrClause}
    (ht : Treated k db L q inputs xs) (hc : q.clauses = cs ++ .or unify arms :: ds)
    (hown : ∀ x, Own unify arms x → x ∉ xs ∧ x ∉ q.inVars ∧ ∀ c ∈ cs ++ ds, x ∉ c.vars) {arm : OrClause} (ha : arm ∈ arms) :
    Treated k db L { q with clauses := cs ++ arm.list ++ ds } inputs xs := by
  have hs := ht.clauses.each
  rw [hc] at hs
  have hap := ht.clauses.apart
  rw [hc] at hap
  have hor : (∀ x ∈ OrClause.varsAll arms, ¬ L x) ∧
      OrClause.SimpleAll k.schema L (only q.inVars (AMap.get inputs.values)) arms := by
    rcases hs (.or unify arms) (by simp) with hor | hor
    · rw [WhereClause.Simple] at hor
      obtain ⟨-, -, hL, -, hall⟩ := hor
      exact ⟨hL, hall⟩
    · cases unify with
      | none => exact hor.elim
      | some vs =>
        obtain ⟨-, -, hL, -, hall⟩ := hor
        refine ⟨hL, simpleArms_congr arms (fun x hx => ?_) hall⟩
        by_cases hv : x ∈ vs
        · simp [only, hv]
        · simp [only, hv, (hown x ⟨vs, rfl, hx, hv⟩).2.1]
  obtain ⟨hL, hall⟩ := hor
  have harm := simpleAll_iff.mp (simpleArms_iff.mp hall arm ha)
  have hLa : ∀ c ∈ arm.list, ∀ x ∈ c.vars, ¬ L x := fun c hc x hx =>
    hL x (mem_orVarsAll.mpr ⟨arm, ha, vars_of_list hc hx⟩)
  have ho := ht.once
  unfold LooseOnce at ho
  rw [hc, List.pairwise_append, List.pairwise_cons] at ho
  obtain ⟨o1, ⟨o2, o3⟩, o4⟩ := ho
  have hmem : ∀ {c}, c ∈ cs ++ arm.list ++ ds → c ∈ arm.list ∨ c ∈ cs ++ ds := by
    intro c hc
    simp only [List.mem_append] at hc ⊢
    tauto
  have hin : ∀ {c}, c ∈ cs ++ ds → c ∈ cs ++ .or unify arms :: ds := by
    intro c hc
    simp only [List.mem_append, List.mem_cons] at hc ⊢
    tauto
  refine ⟨⟨ht.cache, ht.ins, ht.limit, ⟨?_, ?_⟩, ?_, ht.given⟩, ht.store, fun o hl => ht.sources o ?_, ht.find, ?_⟩
  · intro c hc'
    simp only [List.mem_append] at hc'
    rcases hc' with (hc' | hc') | hc'
    · exact hs c (by simp [hc'])
    · exact .inl (harm c hc')
    · exact hs c (by simp [hc'])
  · intro c hc' x hx
    rcases hmem hc' with hc' | hc'
    · rw [(harm c hc').locals] at hx
      cases hx
    · obtain ⟨h1, h2, h3⟩ := hap c (hin hc') x hx
      refine ⟨h1, h2, fun d hd hxd => ?_⟩
      rcases hmem hd with hd | hd
      · have hxo : x ∈ OrClause.varsAll arms := mem_orVarsAll.mpr ⟨arm, ha, vars_of_list hd (List.mem_filter.mp hxd).1⟩
        have hxl : x ∈ (WhereClause.or unify arms).locals := by
          by_contra hno
          refine h3 (.or unify arms) (by simp) (List.mem_filter.mpr ⟨?_, by simpa using hno⟩)
          rwa [WhereClause.vars]
        have ho : Own unify arms x := by
          cases unify with
          | none => simp [WhereClause.locals] at hxl
          | some vs =>
            simp only [WhereClause.locals] at hxl
            split at hxl
            · cases hxl
            · exact ⟨vs, rfl, hxo, by simpa using (List.mem_filter.mp hxl).2⟩
        exact (hown x ho).2.2 c hc' (locals_vars hx)
      · exact h3 d (hin hd) hxd
  · unfold LooseOnce
    simp only [List.append_assoc, List.pairwise_append, List.mem_append]
    refine ⟨o1, ⟨?_, o3, ?_⟩, ?_⟩
    · exact List.pairwise_of_forall_mem_list fun c hc d _ => .inr (.inr fun x hx _ => hLa c hc x hx)
    · intro c hc d _
      exact .inr (.inr fun x hx _ => hLa c hc x hx)
    · rintro c hc d (hd | hd)
      · exact .inr (.inr fun x _ hx => hLa d hd x hx)
      · exact o4 c hc d (by simp [hd])
  · rw [usesAll_iff] at hl ⊢
    obtain ⟨c, hc', hl⟩ := hl
    simp only [List.mem_append] at hc'
    rw [hc]
    rcases hc' with (hc' | hc') | hc'
    · exact ⟨c, by simp [hc'], hl⟩
    · exact ⟨.or unify arms, by simp, by
        rw [WhereClause.uses]; exact usesArms_iff.mpr ⟨arm, ha, usesAll_iff.mpr ⟨c, hc', hl⟩⟩⟩
    · exact ⟨c, by simp [hc'], hl⟩
  · intro ρ hρ
    refine ht.read ρ ⟨hρ.proper, hρ.inputs, ?_⟩
    rw [hc, satAll_or hρ.proper fun x hx => (hown x hx).2.2]
    exact ⟨ρ, hρ.proper, fun _ => .inl rfl, arm, ha, hρ.sat⟩

/-- C49, for the queries treated: the rows of a query with an `or` are the rows of the queries with the
clauses of one arm in its place, of each of them and together all. -/
theorem C49_union_partial {cs ds : List WhereClause} {unify : UnifyVars} {arms : List OrClause}
    (ht : Treated k db L q inputs xs) (hf : q.find = .rel (xs.map .var)) (hlim : q.limit = .none)
    (hc : q.clauses = cs ++ .or unify arms :: ds)
    (hown : ∀ x, Own unify arms x → x ∉ xs ∧ x ∉ q.inVars ∧ ∀ c ∈ cs ++ ds, x ∉ c.vars)
    (hL : ∀ x ∈ xs, ¬ L x) (h : runQuery fl k db q inputs = .ok r) {rs : OrClause → QResult}
    (hr : ∀ arm ∈ arms, runQuery fl k db { q with clauses := cs ++ arm.list ++ ds } inputs = .ok (rs arm)) :
    ∃ (rows : List (List TypedValue)) (armRows : OrClause → List (List TypedValue)),
      r = .rel xs.length rows.flatten ∧ (∀ arm ∈ arms, rs arm = .rel xs.length (armRows arm).flatten) ∧
      (∀ row ∈ rows, row.length = xs.length) ∧ (∀ arm ∈ arms, ∀ row ∈ armRows arm, row.length = xs.length) ∧
      (q.order = none → rows.Nodup ∧ ∀ arm ∈ arms, (armRows arm).Nodup) ∧
      ∀ row, row ∈ rows ↔ ∃ arm ∈ arms, row ∈ armRows arm := by
  obtain ⟨rows, h1, h2, -, h4, h5⟩ := C45_rows_partial ht hf hlim h
  have key : ∀ arm : OrClause, ∃ l : List (List TypedValue), arm ∈ arms → rs arm = .rel xs.length l.flatten ∧
      (q.order = none → l.Nodup) ∧
      ∀ row, row ∈ l ↔ Answers k.schema db.facts { q with clauses := cs ++ arm.list ++ ds } inputs.values xs row := by
    intro arm
    by_cases ha : arm ∈ arms
    · obtain ⟨l, g1, g2, -, g4, g5⟩ := C45_rows_partial (ht.arm hc hown ha) hf hlim (hr arm ha)
      exact ⟨l, fun _ => ⟨g1, g5, fun row => ⟨g2 row, g4 hL row⟩⟩⟩
    · exact ⟨[], fun h => absurd h ha⟩
  obtain ⟨armRows, hrows⟩ := Classical.axiomOfChoice key
  refine ⟨rows, armRows, h1, fun arm ha => (hrows arm ha).1, ?_, ?_, fun ho => ⟨h5 ho, fun arm ha => (hrows arm ha).2.1 ho⟩,
    fun row => ?_⟩
  · intro row hr
    obtain ⟨ρ, -, rfl⟩ := h2 row hr
    simp
  · intro arm ha row hr
    obtain ⟨ρ, -, rfl⟩ := ((hrows arm ha).2.2 row).mp hr
    simp
  · have e1 : row ∈ rows ↔ Answers k.schema db.facts q inputs.values xs row := ⟨h2 row, h4 hL row⟩
    rw [e1]
    constructor
    · rintro ⟨ρ, hρ, rfl⟩
      have hs := hρ.sat
      rw [hc, satAll_or hρ.proper fun x hx => (hown x hx).2.2] at hs
      obtain ⟨σ, g1, g2, arm, ha, hs⟩ := hs
      refine ⟨arm, ha, ((hrows arm ha).2.2 _).mpr ⟨σ, ⟨g1, fun x hx => ?_, hs⟩, List.map_congr_left fun x hx => ?_⟩⟩
      · rw [(g2 x).resolve_right fun ho => (hown x ho).2.1 hx]
        exact hρ.inputs x hx
      · exact ((g2 x).resolve_right fun ho => (hown x ho).1 hx).symm
    · rintro ⟨arm, ha, hr⟩
      obtain ⟨ρ, hρ, rfl⟩ := ((hrows arm ha).2.2 row).mp hr
      refine ⟨ρ, ⟨hρ.proper, hρ.inputs, ?_⟩, rfl⟩
      rw [hc, satAll_or hρ.proper fun x hx => (hown x hx).2.2]
      exact ⟨ρ, hρ.proper, fun _ => .inl rfl, arm, ha, hρ.sat⟩

end

namespace QueryEx

/-- `[:find ?x ?y :where [?x :f/long ?y] (or (and [?x :f/name _] [?x :f/long ?y]) (and [?x :f/long ?y] [(< 3 ?y)]))]` -/
def orQuery : FindQuery := find [x, y] [pat x "long" (.var y),
  .or none [.and [pat x "name" .placeholder, pat x "long" (.var y)],
    .and [pat x "long" (.var y), .pred (some .lt) [.int 3, .var y]]]]

theorem C49_example : run orQuery [] = .ok (.rel 2 [.ref 20, .long 1, .ref 21, .long 21]) := by decide +kernel

/-- An `or` of patterns of one shape, done with one table. -/
theorem C49_example_simple : run (find [x] [.or none [.clause (pat x "name" .placeholder), .clause (pat x "size" .placeholder)]]) [] =
    .ok (.rel 1 [.ref 20, .ref 21]) := by decide +kernel

theorem C49_example_treated : Treated ⟨schema, none⟩ store (fun _ => False) orQuery (Inputs.ofValues []) [x, y] := by
  have hp : ∀ (vals : Var → Option TypedValue), (∀ x, vals x = none) → ∀ a v, (v = .placeholder ∨ ∃ y, v = .var y) →
      PatOk (fun _ => False) vals { e := .var x, a := .ident (kw a), v := v, tx := .placeholder } := by
    intro vals hv a v h
    refine patOk_known ⟨.inr ⟨_, rfl⟩, ?_, ?_⟩ ?_
    · rintro k rfl; rcases h with h | ⟨y, h⟩ <;> cases h
    · rintro c w rfl; rcases h with h | ⟨y, h⟩ <;> cases h
    · simp [Pattern.NoKeyword, hv]
  refine ⟨⟨rfl, inputs_ok AMap.wf_nil (by simp), by simp [orQuery, find], ?_, looseOnce_false _, by simp [orQuery, find]⟩, store_ok,
    by simp [orQuery, find, WhereClause.usesAll, WhereClause.uses, OrClause.usesAll, OrClause.uses, pat],
    ⟨x, by simp, by simp [orQuery, find]⟩, ?_⟩
  · refine .simple ?_
    simp only [orQuery, find, pat, WhereClause.SimpleAll, WhereClause.Simple, OrClause.SimpleAll, OrClause.Simple, and_true]
    have hn : ∀ z, only [] (AMap.get (Inputs.ofValues []).values) z = none := fun z => by simp [only]
    refine ⟨hp _ hn _ _ (.inr ⟨_, rfl⟩), by simp, rfl, fun _ _ => id, ?_, ⟨hp _ hn _ _ (.inl rfl), hp _ hn _ _ (.inr ⟨_, rfl⟩)⟩,
      hp _ hn _ _ (.inr ⟨_, rfl⟩), fun _ _ => id⟩
    refine ⟨fun z => if z = x then .ref else .long, ?_⟩
    intro arm ha z hz _
    have hlong : Pattern.Types schema (only [] (AMap.get (Inputs.ofValues []).values))
        { e := .var x, a := .ident (kw "long"), v := .var y, tx := .placeholder } y .long :=
      .inr ⟨rfl, 10, _, .inr (.inl ⟨_, rfl, rfl⟩), rfl, rfl⟩
    have href : ∀ {a : NonValue} {v : PatValue}, Pattern.Types schema (only [] (AMap.get (Inputs.ofValues []).values))
        { e := .var x, a := a, v := v, tx := .placeholder } x .ref := .inl ⟨.inl rfl, rfl⟩
    have hz' : z = x ∨ z = y := by
      simp only [List.mem_cons, List.not_mem_nil, or_false] at ha
      rcases ha with rfl | rfl <;>
        simp [OrClause.vars, WhereClause.varsAll, WhereClause.vars, Pattern.vars, NonValue.vars, PatValue.vars, argVars] at hz <;> tauto
    have hlist : .pattern { e := .var x, a := .ident (kw "long"), v := .var y, tx := .placeholder } ∈ arm.list := by
      simp only [List.mem_cons, List.not_mem_nil, or_false] at ha
      rcases ha with rfl | rfl <;> simp [OrClause.list]
    refine ⟨_, hlist, ?_⟩
    rcases hz' with rfl | rfl
    · exact href
    · exact hlong
  · intro ρ hρ
    have hs := hρ.sat
    simp only [orQuery, find, SatAll, pat, Sat] at hs
    refine readable_patterns (s := schema) C45_example_hyps.2.1
      (ps := [{ e := .var x, a := .ident (kw "long"), v := .var y, tx := .placeholder }]) ?_ ρ ?_
    · intro v hv
      refine ⟨_, List.mem_singleton.mpr rfl, ?_⟩
      simpa [Pattern.vars, NonValue.vars, PatValue.vars] using hv
    · intro p hp
      rw [List.mem_singleton] at hp
      subst hp
      exact hs.1

/-- `[:find ?x :where [?x :f/long _] (or-join [?x] [?x :f/name ?y] (and [?x :f/knows ?y] [?y :f/long ?z]))]` -/
def joinQuery : FindQuery := find [x] [pat x "long" .placeholder,
  .or (some [x]) [.clause (pat x "name" (.var y)), .and [pat x "knows" (.var y), pat y "long" (.var z)]]]

/-- The variables an `or-join` keeps to itself: `?y` is a string in one arm and a reference in the other. -/
theorem C49_example_join : run joinQuery [] = .ok (.rel 1 [.ref 20, .ref 21]) := by decide +kernel

theorem C49_example_join_treated : Treated ⟨schema, none⟩ store (fun _ => False) joinQuery (Inputs.ofValues []) [x] ∧
    ∃ cs ds arms, joinQuery.clauses = cs ++ .or (some [x]) arms :: ds ∧
      (∃ y, Own (some [x]) arms y) ∧
      ∀ y, Own (some [x]) arms y → y ∉ [x] ∧ y ∉ joinQuery.inVars ∧ ∀ c ∈ cs ++ ds, y ∉ c.vars := by
  have hp : ∀ (vals : Var → Option TypedValue), (∀ x, vals x = none) → ∀ x a v, (v = .placeholder ∨ ∃ y, v = .var y) →
      PatOk (fun _ => False) vals { e := .var x, a := .ident (kw a), v := v, tx := .placeholder } := by
    intro vals hv x a v h
    refine patOk_known ⟨.inr ⟨_, rfl⟩, ?_, ?_⟩ ?_
    · rintro k rfl; rcases h with h | ⟨y, h⟩ <;> cases h
    · rintro c w rfl; rcases h with h | ⟨y, h⟩ <;> cases h
    · simp [Pattern.NoKeyword, hv]
  have hnx : y ≠ x ∧ z ≠ x := by decide
  refine ⟨⟨⟨rfl, inputs_ok AMap.wf_nil (by simp), by simp [joinQuery, find], ⟨?_, ?_⟩, looseOnce_false _, by simp [joinQuery, find]⟩,
    store_ok, by simp [joinQuery, find, WhereClause.usesAll, WhereClause.uses, OrClause.usesAll, OrClause.uses, pat],
    ⟨x, by simp, by simp [joinQuery, find]⟩, ?_⟩, _, _, _, show joinQuery.clauses = [_] ++ _ :: [] from rfl, ⟨y, [x], rfl, ?_, ?_⟩, ?_⟩
  · have hn : ∀ z, only [] (AMap.get (Inputs.ofValues []).values) z = none := fun z => by simp [only]
    have hn' : ∀ z, only [x] (only [] (AMap.get (Inputs.ofValues []).values)) z = none := fun z => by simp [only]
    intro c hc
    simp only [joinQuery, find, List.mem_cons, List.not_mem_nil, or_false] at hc
    rcases hc with rfl | rfl
    · left
      simp only [pat, WhereClause.Simple]
      exact hp _ hn _ _ _ (.inl rfl)
    · right
      refine ⟨by simp, by decide, fun _ _ => id, ⟨fun _ => .ref, ?_⟩, ?_⟩
      · intro arm ha u hu _
        obtain rfl := List.mem_singleton.mp hu
        simp only [List.mem_cons, List.not_mem_nil, or_false] at ha
        rcases ha with rfl | rfl
        · exact ⟨_, List.mem_singleton.mpr rfl, .inl ⟨.inl rfl, rfl⟩⟩
        · exact ⟨_, List.mem_cons_self, .inl ⟨.inl rfl, rfl⟩⟩
      · simp only [pat, WhereClause.SimpleAll, WhereClause.Simple, OrClause.SimpleAll, OrClause.Simple, and_true]
        exact ⟨hp _ hn' _ _ _ (.inr ⟨_, rfl⟩), hp _ hn' _ _ _ (.inr ⟨_, rfl⟩), hp _ hn' _ _ _ (.inr ⟨_, rfl⟩)⟩
  · have hloc : ∀ c ∈ joinQuery.clauses, ∀ u ∈ c.locals, u ∈ [y, z] := by decide +kernel
    have hap : ∀ u ∈ [y, z], u ∉ joinQuery.inVars ∧ u ∉ joinQuery.shown ∧ ∀ d ∈ joinQuery.clauses, u ∉ d.outer := by
      decide +kernel
    exact fun c hc u hu => hap u (hloc c hc u hu)
  · intro ρ hρ
    have hs := hρ.sat
    simp only [joinQuery, find, SatAll, pat, Sat] at hs
    refine readable_patterns (s := schema) C45_example_hyps.2.1
      (ps := [{ e := .var x, a := .ident (kw "long"), v := .placeholder, tx := .placeholder }]) ?_ ρ ?_
    · intro v hv
      refine ⟨_, List.mem_singleton.mpr rfl, ?_⟩
      simpa [Pattern.vars, NonValue.vars, PatValue.vars] using hv
    · intro p hp
      rw [List.mem_singleton] at hp
      subst hp
      exact hs.1
  · decide +kernel
  · simpa using hnx.1
  · rintro u ⟨vs, e, hu, hn⟩
    obtain rfl := Option.some.inj e
    have : ∀ u ∈ OrClause.varsAll [.clause (pat x "name" (.var y)), .and [pat x "knows" (.var y), pat y "long" (.var z)]], u ∉ [x] →
        u ∉ [x] ∧ u ∉ joinQuery.inVars ∧ ∀ c ∈ [pat x "long" .placeholder] ++ [], u ∉ c.vars := by decide +kernel
    exact this u hu hn

/-! ### Where the code does otherwise -/

/-- C49: patterns of one shape, none of which can match because their entities have no entid, panic. -/
theorem C49_fails_panic :
    run (find [y] [.or none
      [.clause (.pattern { e := .ident (kw "a"), a := .ident (kw "long"), v := .var y, tx := .placeholder }),
       .clause (.pattern { e := .ident (kw "b"), a := .ident (kw "long"), v := .var y, tx := .placeholder })]]) [] = .panic := by
  decide +kernel

/-- C49: the types of a variable that is local to the arms of an `or-join` are those of a variable of
the same name outside.  `[?x :f/long ?z]` has three answers, two of which have a name or a size. -/
theorem C49_fails_local :
    run (find [x, z] [.or (some [x]) [.clause (pat x "name" (.var z)), .clause (pat x "size" (.var z))],
      pat x "long" (.var z)]) [] = .ok (.rel 2 []) ∧
    run (find [x, z] [.or (some [x]) [.clause (pat x "name" (.var y)), .clause (pat x "size" (.var y))],
      pat x "long" (.var z)]) [] = .ok (.rel 2 [.ref 20, .long 1, .ref 21, .long 21]) :=
  ⟨by decide +kernel, by decide +kernel⟩

/-- C49: in the other order, the query fails. -/
theorem C49_fails_local_unbound :
    run (find [x, z] [pat x "long" (.var z),
      .or (some [x]) [.clause (pat x "name" (.var z)), .clause (pat x "size" (.var z))]]) [] = .err .unboundVariable := by
  decide +kernel

/-- C49: a variable with different types in the arms cannot be found. -/
theorem C49_fails_types :
    run (find [x, y] [.or none [.clause (pat x "long" (.var y)), .clause (pat x "name" (.var y))]]) [] =
      .err .unboundVariable := by
  decide +kernel

/-- `[:find ?x :where [?x ?w ?y] (or (and [?x ?w ?y] [?x :f/size _]) (and [?x ?w ?y] [?x :f/knows _]))]` -/
def tagQuery : FindQuery := find [x] [open' x w y,
  .or none [.and [open' x w y, pat x "size" .placeholder], .and [open' x w y, pat x "knows" .placeholder]]]

/-- C49: with a variable whose type is not known outside, the arms refer to the type column of a table
outside of them: the query algebrizes and its SQL is refused. -/
theorem C49_fails_column : (∃ a, algebrizeQuery ⟨schema, none⟩ tagQuery (Inputs.ofValues []) = .ok a) ∧
    run tagQuery [] = .err .other := by
  have h : (match algebrizeQuery ⟨schema, none⟩ tagQuery (Inputs.ofValues []) with | .ok _ => true | _ => false) = true := by
    decide +kernel
  refine ⟨?_, by decide +kernel⟩
  cases ha : algebrizeQuery ⟨schema, none⟩ tagQuery (Inputs.ofValues []) with
  | ok a => exact ⟨a, rfl⟩
  | err e => rw [ha] at h; cases h
  | panic => rw [ha] at h; cases h

end QueryEx
end Mentat
