import Verif.Props.QueryOrder
import Verif.Proofs.QueryNotRef
/-
C103: binding a variable as an input selects, of the rows of the query without it, those with that value.
-/
namespace Mentat
open CC

/-- The rows in which each of the variables `ys` has the value given. -/
def selected (xs ys : List Var) (values : AMap Var TypedValue) (rows : List (List TypedValue)) : List (List TypedValue) :=
  rows.filter fun row => (xs.zip row).all fun p => decide (p.1 ∈ ys → AMap.get values p.1 = some p.2)

theorem mem_selected {xs ys : List Var} {values : AMap Var TypedValue} {rows : List (List TypedValue)} {ρ : Assign} :
    xs.map ρ ∈ selected xs ys values rows ↔ xs.map ρ ∈ rows ∧ ∀ x ∈ xs, x ∈ ys → AMap.get values x = some (ρ x) := by
  unfold selected
  rw [List.mem_filter]
  refine and_congr_right fun hm => ?_
  clear hm
  induction xs with
  | nil => simp
  | cons x xs ih =>
    rw [List.map_cons, List.zip_cons_cons, List.all_cons, Bool.and_eq_true, ih, decide_eq_true_eq, List.forall_mem_cons]

section
variable {fl : Floats} {k : Known} {L L' : Var → Prop} {db : Tables} {q : FindQuery} {inputs inputs' : Inputs} {xs ys : List Var}
  {r r' : QResult}

/-- C103, for the queries treated in C45: with some of the variables found given as inputs, the rows are those of the query
without that have the values given. -/
theorem C103_selected_partial (ht : Treated k db L q inputs xs) (ht' : Treated k db L' { q with inVars := ys } inputs' xs)
    (hin : ∀ x ∈ q.inVars, x ∈ ys ∧ AMap.get inputs'.values x = AMap.get inputs.values x)
    (hnew : ∀ y ∈ ys, y ∈ xs ∨ y ∈ q.inVars)
    (hf : q.find = .rel (xs.map .var)) (hlim : q.limit = .none) (ho : q.order = none)
    (hL : ∀ x ∈ xs, ¬ L x) (hL' : ∀ x ∈ xs, ¬ L' x)
    (h : runQuery fl k db q inputs = .ok r) (h' : runQuery fl k db { q with inVars := ys } inputs' = .ok r') :
    ∃ rows rows' : List (List TypedValue), r = .rel xs.length rows.flatten ∧ r' = .rel xs.length rows'.flatten ∧
      (∀ row ∈ rows, row.length = xs.length) ∧ rows'.Perm (selected xs ys inputs'.values rows) := by
  obtain ⟨rows, h1, h2, -, h3, h4⟩ := C45_rows_partial ht hf hlim h
  obtain ⟨rows', h1', h2', -, h3', h4'⟩ := C45_rows_partial ht' hf hlim h'
  refine ⟨rows, rows', h1, h1', ?_, (List.perm_ext_iff_of_nodup (h4' ho) ((h4 ho).sublist List.filter_sublist)).2 fun row => ?_⟩
  · intro row hr
    obtain ⟨ρ, -, rfl⟩ := h2 row hr
    simp
  constructor
  · intro hr
    obtain ⟨ρ, ⟨a, b, c⟩, rfl⟩ := h2' row hr
    refine mem_selected.2 ⟨h3 hL _ ⟨ρ, ⟨a, fun x hx => ?_, c⟩, rfl⟩, fun x _ hy => b x hy⟩
    rw [← (hin x hx).2]
    exact b x (hin x hx).1
  · intro hr
    obtain ⟨ρ, ⟨a, b, c⟩, rfl⟩ := h2 row (List.mem_filter.1 hr).1
    refine h3' hL' _ ⟨ρ, ⟨a, fun y hy => ?_, c⟩, rfl⟩
    rcases hnew y hy with hx | hx
    · exact (mem_selected.1 hr).2 y hx hy
    · rw [(hin y hx).2]
      exact b y hx

end

/-- A query of patterns after a history is treated, whatever is given. -/
theorem treated_asking {db : Db} (hr : ReachData db) (ftId : Text → Int) {ps : List Pattern} {xs ys : List Var}
    {values : AMap Var TypedValue} (hps : Askable ps) (hxs : ∀ x ∈ xs, ∃ p ∈ ps, x ∈ p.vars) (hnew : ∃ x ∈ xs, x ∉ ys)
    (hw : AMap.WF values) (hp : ∀ x v, AMap.get values x = some v → v.Proper)
    (hkw : ∀ p ∈ ps, ∀ y ∈ ys, ∀ k, p.e = .var y ∨ p.tx = .var y → AMap.get values y ≠ some (.keyword k)) :
    Treated ⟨db.schema, none⟩ (db.tables ftId) (fun _ => False) { asking xs ps with inVars := ys } (Inputs.ofValues values) xs := by
  refine ⟨⟨rfl, inputs_ok hw hp, by simp [asking], ?_, looseOnce_false _, by simp⟩, dbOk_reach hr ftId, ?_, hnew, ?_⟩
  · refine .simple (simpleAll_patterns fun p hp => patOk_known (hps p hp).1 ⟨?_, ?_, ?_⟩)
    · intro x k hx ho
      simp only [only, Inputs.ofValues] at ho
      split at ho
      · rename_i hy
        exact hkw p hp x hy k (.inl hx) ho
      · cases ho
    · intro x k hx
      rcases (hps p hp).1.attr with ⟨i, hi⟩ | ⟨i, hi⟩ <;> rw [hi] at hx <;> cases hx
    · intro x k hx ho
      simp only [only, Inputs.ofValues] at ho
      split at ho
      · rename_i hy
        exact hkw p hp x hy k (.inr hx) ho
      · cases ho
  · intro o hl
    exfalso
    clear hps hxs hkw
    unfold asking at hl
    induction ps with
    | nil => cases hl
    | cons p ps ih => exact ih (by simpa [WhereClause.usesAll, WhereClause.uses] using hl)
  · intro ρ hρ
    exact readable_patterns (fun d hd => (rows_storable hr d hd).2) hxs ρ (satAll_patterns.mp hρ.sat)

/-- C103: a query, of any clauses but `or` and `ground`, that is given a value other than a reference for a variable in the
place of an entity, an attribute or a transaction in one of its patterns answers nothing, whatever is stored; no row without
the input has such a value. -/
theorem C103_notRef_partial {fl : Floats} {s : Schema} {db : Tables} {q : FindQuery} {inputs : Inputs} {xs : List Var} {r : QResult}
    {p : Pattern} {x : Var} {v : TypedValue} (hin : inputs.Ok) (hf : q.find = .rel (xs.map .var)) (hlim : q.limit = .none)
    (hb : WhereClause.basicAll q.clauses = true)
    (hp : .pattern p ∈ q.clauses) (hx : p.e = .var x ∨ p.a = .var x ∨ p.tx = .var x) (hi : x ∈ q.inVars)
    (hv : AMap.get inputs.values x = some v) (hn : v.valueType ≠ .ref)
    (h : runQuery fl ⟨s, none⟩ db q inputs = .ok r) : r = .rel xs.length [] := by
  unfold runQuery at h
  obtain ⟨a, halg, h⟩ := bind_iff.mp h
  obtain ⟨he, hfa⟩ := notRef_empty hin hf hlim hb hp hx hi hv hn halg
  unfold runAlgebrized at h
  rw [if_pos he] at h
  obtain rfl := Res.ok.inj h
  rw [hfa, hf]
  simp [QResult.empty]

/-- C103, for patterns, without the assumption that the queries are answered: after any history, the query with some of the
variables it finds given answers with the rows of the query with none given that have the values. -/
theorem C103_patterns_partial {db : Db} (hr : ReachData db) (fl : Floats) (ftId : Text → Int) {ps : List Pattern}
    {xs ys : List Var} {values : AMap Var TypedValue} (hps : Askable ps) (hn : xs.Nodup) (hys : ys.Nodup)
    (hxs : ∀ x ∈ xs, ∃ p ∈ ps, x ∈ p.vars) (hnew : ∃ x ∈ xs, x ∉ ys) (hsub : ∀ y ∈ ys, y ∈ xs)
    (hw : AMap.WF values) (hp : ∀ x v, AMap.get values x = some v → v.Proper) (hall : ∀ y ∈ ys, (AMap.get values y).isSome) :
    ∃ rows rows' : List (List TypedValue),
      runQuery fl ⟨db.schema, none⟩ (db.tables ftId) (asking xs ps) ⟨[], []⟩ = .ok (.rel xs.length rows.flatten) ∧
      runQuery fl ⟨db.schema, none⟩ (db.tables ftId) { asking xs ps with inVars := ys } (Inputs.ofValues values) =
        .ok (.rel xs.length rows'.flatten) ∧
      (∀ row ∈ rows, row.length = xs.length) ∧ rows'.Perm (selected xs ys values rows) := by
  have hnew0 : ∃ x ∈ xs, x ∉ ([] : List Var) := have ⟨x, hx, _⟩ := hnew; ⟨x, hx, by simp⟩
  have ht := treated_asking (ys := []) (values := []) hr ftId hps hxs hnew0 AMap.wf_nil (by simp) (by simp)
  obtain ⟨r, h⟩ := C74_patterns_partial (fl := fl) ht rfl rfl (fun p hp => (hps p hp).2) hn (fun x hx => .inr (hxs x hx))
    (by simp) (by simp [asking]) (by simp) rfl
  by_cases hkw : ∃ p ∈ ps, ∃ y ∈ ys, ∃ k, (p.e = .var y ∨ p.tx = .var y) ∧ AMap.get values y = some (.keyword k)
  · obtain ⟨p, hpp, y, hy, kk, hpe, hvy⟩ := hkw
    obtain ⟨rows, rfl, h2, -, -, -⟩ := C45_rows_partial ht rfl rfl h
    obtain ⟨a, ha⟩ := C74_algebrize_partial (k := ⟨db.schema, none⟩) (q := { asking xs ps with inVars := ys })
      (inputs := Inputs.ofValues values) rfl (inputs_ok hw hp) (xs := xs) rfl rfl
      (fun p hp => (hps p hp).2) (fun x hx => .inr (hxs x hx)) hys (by simp [asking]) hall rfl (by simp [asking])
    obtain ⟨he, hfa⟩ := notRef_empty (p := p) (x := y) (inputs_ok hw hp) (xs := xs) rfl rfl (basicAll_patterns ps)
      (List.mem_map_of_mem hpp) (hpe.imp_right .inr) hy hvy (by simp [TypedValue.valueType]) ha
    refine ⟨rows, [], h, ?_, ?_, ?_⟩
    · unfold runQuery
      rw [ha]
      show runAlgebrized fl _ a = _
      unfold runAlgebrized
      rw [if_pos he, hfa]
      simp [asking, QResult.empty]
    · intro row hrow
      obtain ⟨ρ, -, rfl⟩ := h2 row hrow
      simp
    · rw [List.nil_perm]
      refine List.eq_nil_iff_forall_not_mem.2 fun row hrow => ?_
      obtain ⟨ρ, hρ, rfl⟩ := h2 row (List.mem_filter.1 hrow).1
      have := (mem_selected.1 hrow).2 y (hsub y hy) hy
      rw [hvy] at this
      obtain ⟨d, -, m⟩ := satAll_patterns.mp hρ.sat p hpp
      rcases hpe with hpe | hpe
      · have m' := m.1
        rw [hpe] at m'
        rw [show ρ y = _ from m'] at this
        cases this
      · have m' := m.2.2.2
        rw [hpe] at m'
        rw [show ρ y = _ from m'] at this
        cases this
  have ht' := treated_asking hr ftId hps hxs hnew hw hp
    (fun p hp y hy k hpe hk => hkw ⟨p, hp, y, hy, k, hpe, hk⟩)
  obtain ⟨r', h'⟩ := C74_patterns_partial (fl := fl) ht' rfl rfl (fun p hp => (hps p hp).2) hn (fun x hx => .inr (hxs x hx))
    hys (by simp [asking]) hall rfl
  obtain ⟨rows, rows', rfl, rfl, h3⟩ := C103_selected_partial (q := asking xs ps) ht ht' (by simp [asking])
    (fun y hy => .inl (hsub y hy)) rfl rfl rfl (fun _ _ => id) (fun _ _ => id) h h'
  exact ⟨rows, rows', h, h', h3⟩

/-- `[:find ?e ?v :in ?v :where [?e :x/one ?v]]` after a history, with the value held and with another. -/
theorem C103_example : ∃ db : Db, ReachData db ∧ ∃ rows rows' rows'' : List (List TypedValue),
    runQuery QueryEx.floats ⟨db.schema, none⟩ (db.tables fun _ => 1) (asking ["e".toList, "v".toList]
      [{ e := .var "e".toList, a := .ident (kw "x" "one"), v := .var "v".toList, tx := .placeholder }]) ⟨[], []⟩ =
        .ok (.rel 2 rows.flatten) ∧
    runQuery QueryEx.floats ⟨db.schema, none⟩ (db.tables fun _ => 1) { asking ["e".toList, "v".toList]
      [{ e := .var "e".toList, a := .ident (kw "x" "one"), v := .var "v".toList, tx := .placeholder }] with
        inVars := ["v".toList] } (Inputs.ofValues [("v".toList, str "b")]) = .ok (.rel 2 rows'.flatten) ∧
    runQuery QueryEx.floats ⟨db.schema, none⟩ (db.tables fun _ => 1) { asking ["e".toList, "v".toList]
      [{ e := .var "e".toList, a := .ident (kw "x" "one"), v := .var "v".toList, tx := .placeholder }] with
        inVars := ["v".toList] } (Inputs.ofValues [("v".toList, str "a")]) = .ok (.rel 2 rows''.flatten) ∧
    rows = [[.ref e1, str "b"]] ∧ rows' = rows ∧ rows'' = [] := by
  obtain ⟨db, hr, hrun⟩ := C73_example
  have key : ∀ s : String, ∃ rows rows' : List (List TypedValue),
      runQuery QueryEx.floats ⟨db.schema, none⟩ (db.tables fun _ => 1) (asking ["e".toList, "v".toList]
        [{ e := .var "e".toList, a := .ident (kw "x" "one"), v := .var "v".toList, tx := .placeholder }]) ⟨[], []⟩ =
          .ok (.rel 2 rows.flatten) ∧
      runQuery QueryEx.floats ⟨db.schema, none⟩ (db.tables fun _ => 1) { asking ["e".toList, "v".toList]
        [{ e := .var "e".toList, a := .ident (kw "x" "one"), v := .var "v".toList, tx := .placeholder }] with
          inVars := ["v".toList] } (Inputs.ofValues [("v".toList, str s)]) = .ok (.rel 2 rows'.flatten) ∧
      (∀ row ∈ rows, row.length = 2) ∧ rows'.Perm (selected ["e".toList, "v".toList] ["v".toList] [("v".toList, str s)] rows) := by
    intro s
    refine C103_patterns_partial hr QueryEx.floats (fun _ => 1) ?_ (by decide) (by simp) ?_ ⟨"e".toList, by simp, by decide⟩ (by simp)
      ?_ ?_ ?_
    · intro p hp
      rw [List.mem_singleton] at hp
      subst hp
      exact ⟨⟨.inr ⟨_, rfl⟩, by simp, by simp⟩, rfl, by simp⟩
    · intro x hx
      refine ⟨_, List.mem_singleton.mpr rfl, ?_⟩
      simp only [List.mem_cons, List.not_mem_nil, or_false] at hx
      rcases hx with rfl | rfl <;> simp [Pattern.vars, NonValue.vars, PatValue.vars]
    · simp [AMap.WF, AMap.keys]
    · intro x v hv
      simp only [AMap.get] at hv
      split at hv
      · obtain rfl := Option.some.inj hv; trivial
      · cases hv
    · intro y hy
      rw [List.mem_singleton] at hy
      subst hy
      rfl
  obtain ⟨rows, rows', h1, h2, hl, hp⟩ := key "b"
  obtain ⟨rows2, rows'', h1', h2', hl', hp'⟩ := key "a"
  have one : ∀ {rs : List (List TypedValue)}, (∀ row ∈ rs, row.length = 2) → rs.flatten = [.ref e1, str "b"] → rs = [[.ref e1, str "b"]] := by
    intro rs hlen hflat
    cases rs with
    | nil => cases hflat
    | cons a rs =>
      have ha := hlen a (List.mem_cons_self ..)
      rw [List.flatten_cons] at hflat
      have hrs : rs = [] := by
        cases rs with
        | nil => rfl
        | cons b rs =>
          have hb := hlen b (by simp)
          have := congrArg List.length hflat
          simp only [List.length_append, List.flatten_cons, List.length_cons, List.length_nil] at this
          omega
      subst hrs
      simpa using hflat
  have e1' : rows.flatten = [.ref e1, str "b"] := by
    have := h1.symm.trans hrun
    simpa using this
  have e2' : rows2.flatten = [.ref e1, str "b"] := by
    have := h1'.symm.trans hrun
    simpa using this
  have r1 := one hl e1'
  have r2 := one hl' e2'
  subst r1 r2
  refine ⟨db, hr, _, rows', rows'', h1, h2, h2', rfl, ?_, ?_⟩
  · exact List.perm_singleton.1 hp
  · exact List.perm_nil.1 hp'

namespace QueryEx

/-- An ident given for an entity is not taken for what it names: there is no answer, although `:f/long` is entity 10. -/
theorem C103_notRef_example :
    runQuery floats ⟨schema, none⟩ { store with rows := [datom 10 11 (.string "s".toList)] }
      { find [x, y] [pat x "name" (.var y)] with inVars := [x] } (Inputs.ofValues [(x, .keyword (kw "long"))]) = .ok (.rel 2 []) ∧
    runQuery floats ⟨schema, none⟩ { store with rows := [datom 10 11 (.string "s".toList)] }
      { find [x, y] [pat x "name" (.var y)] with inVars := [x] } (Inputs.ofValues [(x, .ref 10)]) =
      .ok (.rel 2 [.ref 10, .string "s".toList]) :=
  ⟨by decide +kernel, by decide +kernel⟩

/-- C103: where a comparison is made, a value that no row has may be an error instead of no rows. -/
theorem C103_fails_type :
    run (find [x, y] [pat x "long" (.var y), .pred (some .lt) [.var y, .int 30]]) [] =
      .ok (.rel 2 [.ref 20, .long 1, .ref 21, .long 21, .ref 22, .long 1]) ∧
    run { find [x, y] [pat x "long" (.var y), .pred (some .lt) [.var y, .int 30]] with inVars := [y] } [(y, .long 1)] =
      .ok (.rel 2 [.ref 20, .long 1, .ref 22, .long 1]) ∧
    run { find [x, y] [pat x "long" (.var y), .pred (some .lt) [.var y, .int 30]] with inVars := [y] } [(y, .long 2)] =
      .ok (.rel 2 []) ∧
    run { find [x, y] [pat x "long" (.var y), .pred (some .lt) [.var y, .int 30]] with inVars := [y] } [(y, .string "s".toList)] =
      .err .other :=
  ⟨by decide +kernel, by decide +kernel, by decide +kernel, by decide +kernel⟩

end QueryEx

end Mentat
