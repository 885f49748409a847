import Verif.Props.Selection
/-
C104: finding fewer variables, or the same in another order, gives the same rows without the other columns.
-/
namespace Mentat
open CC

/-- The value in the column of `y`. -/
def column (y : Var) : List Var → List TypedValue → Option TypedValue
  | x :: xs, v :: row => if x = y then some v else column y xs row
  | _, _ => none

theorem column_map {ρ : Assign} {y : Var} : ∀ {xs : List Var}, y ∈ xs → column y xs (xs.map ρ) = some (ρ y)
  | x :: xs, h => by
    rw [List.map_cons, column]
    split
    · rename_i e; rw [e]
    · rename_i e
      refine column_map ?_
      rcases List.mem_cons.1 h with h | h
      · exact absurd h.symm e
      · exact h

/-- `row'` has the columns `ys` of `row`. -/
def Narrows (xs ys : List Var) (row row' : List TypedValue) : Prop := ys.map (fun y => column y xs row) = row'.map some

theorem narrows_map {ρ : Assign} {xs ys : List Var} (hs : ∀ y ∈ ys, y ∈ xs) : Narrows xs ys (xs.map ρ) (ys.map ρ) := by
  unfold Narrows
  rw [List.map_map]
  exact List.map_congr_left fun y hy => column_map (hs y hy)

theorem narrows_unique {xs ys : List Var} {row row1 row2 : List TypedValue} (h1 : Narrows xs ys row row1)
    (h2 : Narrows xs ys row row2) : row1 = row2 :=
  (List.map_injective_iff.2 fun _ _ e => Option.some.inj e) (h1.symm.trans h2)

/-- The rows of `r'` are those of `r` with the columns `ys` only, each once. -/
def NarrowedTo (xs ys : List Var) (r r' : QResult) : Prop :=
  ∃ rows rows' : List (List TypedValue), r = .rel xs.length rows.flatten ∧ r' = .rel ys.length rows'.flatten ∧
    (∀ row ∈ rows, row.length = xs.length) ∧ (∀ row ∈ rows', row.length = ys.length) ∧ rows'.Nodup ∧
    ∀ row', row' ∈ rows' ↔ ∃ row ∈ rows, Narrows xs ys row row'

theorem narrowed_of {xs ys : List Var} (hs : ∀ y ∈ ys, y ∈ xs) {P : Assign → Prop} {rows rows' : List (List TypedValue)}
    (hn : rows'.Nodup) (h : ∀ row, row ∈ rows ↔ ∃ ρ, P ρ ∧ row = xs.map ρ) (h' : ∀ row, row ∈ rows' ↔ ∃ ρ, P ρ ∧ row = ys.map ρ) :
    NarrowedTo xs ys (.rel xs.length rows.flatten) (.rel ys.length rows'.flatten) := by
  refine ⟨rows, rows', rfl, rfl, ?_, ?_, hn, fun row' => ?_⟩
  · intro row hr
    obtain ⟨ρ, -, rfl⟩ := (h row).1 hr
    simp
  · intro row hr
    obtain ⟨ρ, -, rfl⟩ := (h' row).1 hr
    simp
  · rw [h']
    constructor
    · rintro ⟨ρ, hp, rfl⟩
      exact ⟨xs.map ρ, (h _).2 ⟨ρ, hp, rfl⟩, narrows_map hs⟩
    · rintro ⟨row, hr, hw⟩
      obtain ⟨ρ, hp, rfl⟩ := (h row).1 hr
      exact ⟨ρ, hp, narrows_unique hw (narrows_map hs)⟩

/-- C104, for the queries treated in C45. -/
theorem C104_narrowed_partial {fl : Floats} {k : Known} {L L' : Var → Prop} {db : Tables} {q : FindQuery} {inputs : Inputs}
    {xs ys : List Var} {r r' : QResult} (ht : Treated k db L q inputs xs)
    (ht' : Treated k db L' { q with find := .rel (ys.map .var) } inputs ys) (hs : ∀ y ∈ ys, y ∈ xs)
    (hf : q.find = .rel (xs.map .var)) (hlim : q.limit = .none) (ho : q.order = none)
    (hL : ∀ x ∈ xs, ¬ L x) (hL' : ∀ x ∈ ys, ¬ L' x) (h : runQuery fl k db q inputs = .ok r)
    (h' : runQuery fl k db { q with find := .rel (ys.map .var) } inputs = .ok r') : NarrowedTo xs ys r r' := by
  obtain ⟨rows, rfl, h2, -, h3, -⟩ := C45_rows_partial ht hf hlim h
  obtain ⟨rows', rfl, h2', -, h3', h4'⟩ := C45_rows_partial ht' rfl hlim h'
  refine narrowed_of hs (P := IsAnswer k.schema db.facts q inputs.values) (h4' ho)
    (fun row => ⟨h2 row, h3 hL row⟩) fun row => ?_
  constructor
  · intro hr
    obtain ⟨ρ, ⟨a, b, c⟩, e⟩ := h2' row hr
    exact ⟨ρ, ⟨a, b, c⟩, e⟩
  · rintro ⟨ρ, ⟨a, b, c⟩, e⟩
    exact h3' hL' row ⟨ρ, ⟨a, b, c⟩, e⟩

/-- C104, for patterns after any history, without the assumption that the queries are answered. -/
theorem C104_patterns_partial {db : Db} (hr : ReachData db) (fl : Floats) (ftId : Text → Int) {ps : List Pattern}
    {xs ys : List Var} (hps : Askable ps) (hn : xs.Nodup) (hxs : ∀ x ∈ xs, ∃ p ∈ ps, x ∈ p.vars) (hne : ys ≠ [])
    (hys : ys.Nodup) (hs : ∀ y ∈ ys, y ∈ xs) :
    ∃ r r', runQuery fl ⟨db.schema, none⟩ (db.tables ftId) (asking xs ps) ⟨[], []⟩ = .ok r ∧
      runQuery fl ⟨db.schema, none⟩ (db.tables ftId) (asking ys ps) ⟨[], []⟩ = .ok r' ∧ NarrowedTo xs ys r r' := by
  have hnx : xs ≠ [] := by
    rintro rfl
    cases ys with
    | nil => exact hne rfl
    | cons y ys => exact absurd (hs y (List.mem_cons_self ..)) List.not_mem_nil
  obtain ⟨rows, h1, -, h3⟩ := C73_answers_partial hr fl ftId hps hnx hn hxs
  obtain ⟨rows', h1', h2', h3'⟩ := C73_answers_partial hr fl ftId hps hne hys fun y hy => hxs y (hs y hy)
  exact ⟨_, _, h1, h1', narrowed_of hs
    (P := fun ρ => ρ.Proper ∧ ∀ p ∈ ps, p.Asserted db.schema db.store.log ρ) h2'
    (fun row => by rw [h3]; simp only [and_assoc]) (fun row => by rw [h3']; simp only [and_assoc])⟩

namespace QueryEx

/-- `[?x :f/long ?y]` has three rows; `?y` alone two values. -/
theorem C104_example : run (find [x, y] [pat x "long" (.var y)]) [] = .ok (.rel 2 [.ref 20, .long 1, .ref 21, .long 21, .ref 22, .long 1]) ∧
    run (find [y] [pat x "long" (.var y)]) [] = .ok (.rel 1 [.long 1, .long 21]) ∧
    NarrowedTo [x, y] [y] (.rel 2 [.ref 20, .long 1, .ref 21, .long 21, .ref 22, .long 1]) (.rel 1 [.long 1, .long 21]) := by
  have ht : ∀ xs : List Var, (∃ v ∈ xs, True) → (∀ v ∈ xs, v ∈ [x, y]) →
      Treated ⟨schema, none⟩ store (fun _ => False) (find xs [pat x "long" (.var y)]) (Inputs.ofValues []) xs := by
    intro xs hne hxs
    refine ⟨⟨rfl, inputs_ok AMap.wf_nil (by simp), by simp [find], ?_, looseOnce_false _, by simp [find]⟩, store_ok,
      by simp [find, WhereClause.usesAll, WhereClause.uses, pat], ?_, ?_⟩
    · refine .simple ?_
      simp only [find, pat, WhereClause.SimpleAll, WhereClause.Simple, and_true]
      exact patOk_known (pat_known _ _ _) (by simp [Pattern.NoKeyword, only])
    · obtain ⟨v, hv, -⟩ := hne
      exact ⟨v, hv, by simp [find]⟩
    · intro ρ hρ
      have h := hρ.sat
      simp only [find, SatAll, pat, Sat] at h
      refine readable_patterns (s := schema) C45_example_hyps.2.1
        (ps := [{ e := .var x, a := .ident (kw "long"), v := .var y, tx := .placeholder }]) ?_ ρ ?_
      · intro v hv
        refine ⟨_, List.mem_singleton.mpr rfl, ?_⟩
        simpa [Pattern.vars, NonValue.vars, PatValue.vars] using hxs v hv
      · intro p hp
        rw [List.mem_singleton] at hp
        subst hp
        exact h.1
  have h1 : run (find [x, y] [pat x "long" (.var y)]) [] = .ok (.rel 2 [.ref 20, .long 1, .ref 21, .long 21, .ref 22, .long 1]) := by
    decide +kernel
  have h2 : run (find [y] [pat x "long" (.var y)]) [] = .ok (.rel 1 [.long 1, .long 21]) := by decide +kernel
  exact ⟨h1, h2, C104_narrowed_partial (ht [x, y] ⟨x, by simp, trivial⟩ fun _ => id) (ht [y] ⟨y, by simp, trivial⟩ (by simp)) (by simp)
    rfl rfl rfl (fun _ _ => id) (fun _ _ => id) h1 h2⟩

/-- C104 with a variable of unknown type: found alone it loses the double `1.0`, since there is a long `1`. -/
theorem C104_fails_distinct :
    run (find [x, y] [open' x w y]) [] = .ok (.rel 2 [.ref 20, .long 1, .ref 20, .string "s".toList, .ref 20, .ref 21,
      .ref 20, .boolean true, .ref 21, .long 21, .ref 21, .ref 20, .ref 21, .double (2 ^ 1074), .ref 22, .long 1,
      .ref 22, .string "hello".toList]) ∧
    ∃ vs, run (find [y] [open' x w y]) [] = .ok (.rel 1 vs) ∧ TypedValue.double (2 ^ 1074) ∉ vs :=
  ⟨by decide +kernel, C45_fails_distinct.2⟩

end QueryEx
end Mentat
