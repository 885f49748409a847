import Verif.Proofs.QueryTotal
import Verif.Props.QueryExamples
import Verif.Props.Answers
/-
C74: queries of patterns do not fail.
-/
namespace Mentat
open CC

/-- C74, for queries of patterns without `:order`: whatever the store, the patterns and the inputs, if
every input is given and every variable found is in a pattern or an input, and is found once, there is a
result. -/
theorem C74_patterns_partial {fl : Floats} {k : Known} {db : Tables} {L : Var → Prop} {q : FindQuery} {inputs : Inputs}
    {xs : List Var} {ps : List Pattern} (ht : Treated k db L q inputs xs) (hf : q.find.elements = xs.map .var)
    (hc : q.clauses = ps.map .pattern) (hp : ∀ p ∈ ps, p.named = false ∧ ∀ i, p.v ≠ .constant (.bigInteger i)) (hn : xs.Nodup)
    (hx : ∀ x ∈ xs, x ∈ q.inVars ∨ ∃ p ∈ ps, x ∈ p.vars) (hi : q.inVars.Nodup) (hw : q.withVars.Nodup)
    (hg : ∀ x ∈ q.inVars, (AMap.get inputs.values x).isSome) (ho : q.order = none) :
    ∃ r, runQuery fl k db q inputs = .ok r :=
  query_total ht hf hc hp hn hx hi hw hg ho

/-- Algebrizing a query of patterns does not fail, whatever the schema, even when its attributes are not
known or its types disagree. -/
theorem C74_algebrize_partial {k : Known} {q : FindQuery} {inputs : Inputs} {xs : List Var} {ps : List Pattern}
    (hk : k.cache = none) (hin : inputs.Ok) (hf : q.find.elements = xs.map .var) (hc : q.clauses = ps.map .pattern)
    (hp : ∀ p ∈ ps, p.named = false ∧ ∀ i, p.v ≠ .constant (.bigInteger i))
    (hx : ∀ x ∈ xs, x ∈ q.inVars ∨ ∃ p ∈ ps, x ∈ p.vars) (hi : q.inVars.Nodup) (hw : q.withVars.Nodup)
    (hg : ∀ x ∈ q.inVars, (AMap.get inputs.values x).isSome) (ho : q.order = none) (hlim : ∀ x, q.limit ≠ .var x) :
    ∃ a, algebrizeQuery k q inputs = .ok a :=
  have ⟨a, h, _⟩ := algebrize_total hk hin hf hc hp hx hi hw hg ho hlim
  ⟨a, h⟩

/-- C73 without the assumption that the query is answered: after any history, a query of patterns with
known attributes gives the rows of the assignments under which every pattern is matched by a datom that
was asserted and not retracted since. -/
theorem C73_answers_partial {db : Db} (hr : ReachData db) (fl : Floats) (ftId : Text → Int) {ps : List Pattern}
    (hps : ∀ p ∈ ps, p.Known ∧ p.named = false ∧ ∀ i, p.v ≠ .constant (.bigInteger i)) {xs : List Var} (hne : xs ≠ [])
    (hn : xs.Nodup) (hxs : ∀ x ∈ xs, ∃ p ∈ ps, x ∈ p.vars) :
    ∃ rows : List (List TypedValue),
      runQuery fl ⟨db.schema, none⟩ (db.tables ftId) { find := .rel (xs.map .var), clauses := ps.map .pattern } ⟨[], []⟩ =
        .ok (.rel xs.length rows.flatten) ∧ rows.Nodup ∧
      ∀ row, row ∈ rows ↔ ∃ ρ : Assign, ρ.Proper ∧ (∀ p ∈ ps, p.Asserted db.schema db.store.log ρ) ∧ row = xs.map ρ := by
  have ht : Treated ⟨db.schema, none⟩ (db.tables ftId) (fun _ => False)
      { find := .rel (xs.map .var), clauses := ps.map .pattern } ⟨[], []⟩ xs := by
    refine ⟨⟨rfl, ⟨AMap.wf_nil, by simp, by simp⟩, by simp, ?_, looseOnce_false _, by simp⟩, dbOk_reach hr ftId, ?_, ?_, ?_⟩
    · refine .simple (simpleAll_patterns fun p hp => patOk_known (hps p hp).1 ?_)
      simp [Pattern.NoKeyword, only]
    · intro o hl
      exfalso
      clear hps hxs
      induction ps with
      | nil => cases hl
      | cons p ps ih => exact ih (by simpa [WhereClause.usesAll, WhereClause.uses] using hl)
    · obtain ⟨x, hx⟩ := List.exists_mem_of_ne_nil xs hne
      exact ⟨x, hx, by simp⟩
    · intro ρ hρ
      exact readable_patterns (fun d hd => (rows_storable hr d hd).2) hxs ρ (satAll_patterns.mp hρ.sat)
  obtain ⟨r, h⟩ := C74_patterns_partial (fl := fl) ht rfl rfl (fun p hp => (hps p hp).2) hn (fun x hx => .inr (hxs x hx))
    (by simp) (by simp) (by simp) rfl
  obtain ⟨rows, h1, h2⟩ := C73_history_partial hr (fun p hp => (hps p hp).1) hne hxs h
  exact ⟨rows, by rw [h, h1], h2⟩

/-- The hypotheses hold of a history and a query: `[:find ?e ?v :where [?e :x/one ?v]]`. -/
theorem C73_answers_example : ∃ db : Db, ReachData db ∧ ∃ rows : List (List TypedValue),
    runQuery QueryEx.floats ⟨db.schema, none⟩ (db.tables fun _ => 1)
      { find := .rel (["e".toList, "v".toList].map .var),
        clauses := [{ e := .var "e".toList, a := .ident (kw "x" "one"), v := .var "v".toList, tx := .placeholder }].map .pattern }
      ⟨[], []⟩ = .ok (.rel 2 rows.flatten) := by
  obtain ⟨db, hr, -⟩ := C73_example
  obtain ⟨rows, h, -⟩ := C73_answers_partial hr QueryEx.floats (fun _ => 1)
    (ps := [{ e := .var "e".toList, a := .ident (kw "x" "one"), v := .var "v".toList, tx := .placeholder }])
    (xs := ["e".toList, "v".toList]) (by
      intro p hp
      rw [List.mem_singleton] at hp
      subst hp
      exact ⟨⟨.inr ⟨_, rfl⟩, by simp, by simp⟩, rfl, by simp⟩) (by simp) (by decide) (by
      intro x hx
      refine ⟨_, List.mem_singleton.mpr rfl, ?_⟩
      simp only [List.mem_cons, List.not_mem_nil, or_false] at hx
      rcases hx with rfl | rfl <;> simp [Pattern.vars, NonValue.vars, PatValue.vars])
  exact ⟨db, hr, rows, h⟩

/-! ### Queries that do fail -/

namespace QueryEx

/-- `[?x :f/long 5N]`: a panic.  So is `[$log ?x :f/long ?y]`. -/
theorem C74_fails_panic : run (find [x] [pat x "long" (.constant (.bigInteger 5))]) [] = .panic ∧
    run (find [x] [.pattern { named := true, e := .var x, a := .ident (kw "long"), v := .var y, tx := .placeholder }]) [] = .panic :=
  ⟨by decide +kernel, by decide +kernel⟩

/-- `[:find ?x ?x …]` is an error. -/
theorem C74_fails_twice : run (find [x, x] [pat x "long" (.var y)]) [] = .err .other := by decide +kernel

/-- `[?x :f/none ?y]`, where there is no such attribute, has no answers; ordered by `?y` it is an error. -/
theorem C74_fails_order : run (find [x] [pat x "none" (.var y)]) [] = .ok (.rel 1 []) ∧
    run { find [x] [pat x "none" (.var y)] with order := some [(true, y)] } [] = .err .unboundVariable :=
  ⟨by decide +kernel, by decide +kernel⟩

/-- `[?x ?w ?y] [?z :f/at ?y]`, where the double `5.0` and the instant `5` are stored: the double is read
as an instant, an error.  The type of `?y` is not known when it is first met, so the query is not of those
treated. -/
theorem C74_fails_read :
    runQuery floats ⟨{ schema with attributeMap := (16, attr' .instant false) :: schema.attributeMap }, none⟩
      { store with rows := [datom 21 14 (.double (5 * 2 ^ 1074)), datom 22 16 (.instant 5)] }
      (find [y] [open' x w y, .pattern { e := .var z, a := .entid 16, v := .var y, tx := .placeholder }])
      (Inputs.ofValues []) = .err .badSqlValuePair := by decide +kernel

end QueryEx
end Mentat
