import Verif.Props.QueryExamples
/-
C62: queries of the transaction log.
-/
namespace Mentat
open CC

/-- The log as a query sees it: `transactions` is a view of the main timeline. -/
def Tables.main (db : Tables) : List LogRow := db.log.filter fun l => decide (l.timeline = 0)

theorem mem_main {db : Tables} {l : LogRow} : l ∈ db.main ↔ l ∈ db.log ∧ l.timeline = 0 := by
  simp [Tables.main]

/-- `[:find ?x :where [(tx-ids $ t1 t2) [[?x]]]]` -/
def txIdsQuery (x : Var) (t1 t2 : FnArg) : FindQuery :=
  { find := .rel [.var x], clauses := [.whereFn .txIds [.src false, t1, t2] (.rel [some x])] }

/-- `[:find ?e ?a ?v ?tx ?added :where [(tx-data $ t) [[?e ?a ?v ?tx ?added]]]]` -/
def txDataQuery (e a v tx added : Var) (t : FnArg) : FindQuery :=
  { find := .rel [.var e, .var a, .var v, .var tx, .var added],
    clauses := [.whereFn .txData [.src false, t] (.rel [some e, some a, some v, some tx, some added])] }

theorem int_denotes {s : Schema} {ρ : Assign} {i a : Int} : (FnArg.int i).Denotes s ρ (.ref a) ↔ a = i := by
  simp [FnArg.Denotes]

/-- An assignment of the values of a list to variables. -/
def assign (l : List (Var × TypedValue)) : Assign := fun x => (AMap.get l x).getD (.ref 0)

theorem assign_proper {l : List (Var × TypedValue)} (h : ∀ p ∈ l, p.2.Proper) : (assign l).Proper := by
  intro x
  unfold assign
  cases hx : AMap.get l x with
  | none => trivial
  | some v => exact h _ (AMap.get_some_mem hx)

section
variable {fl : Floats} {k : Known} {db : Tables} {r : QResult}

/-- C62.  `(tx-ids $ t1 t2)` gives exactly the transactions `t` of the log with `t1 ≤ t < t2`, each once. -/
theorem C62_tx_ids (hk : k.cache = none) (hd : DbOk k.schema db) {x : Var} {t1 t2 : Int}
    (h : runQuery fl k db (txIdsQuery x (.int t1) (.int t2)) ⟨[], []⟩ = .ok r) :
    ∃ ts : List Entid, r = .rel 1 (ts.map .ref) ∧ ts.Nodup ∧
      ∀ t, t ∈ ts ↔ (∃ l ∈ db.main, l.tx = t) ∧ t1 ≤ t ∧ t < t2 := by
  have hans : ∀ v, (∃ ρ, IsAnswer k.schema db.facts (txIdsQuery x (.int t1) (.int t2)) [] ρ ∧ v = ρ x) ↔
      ∃ l ∈ db.main, t1 ≤ l.tx ∧ l.tx < t2 ∧ v = .ref l.tx := by
    intro v
    constructor
    · rintro ⟨ρ, ⟨-, -, h3⟩, rfl⟩
      simp only [txIdsQuery, SatAll, Sat, and_true, FnSat, int_denotes] at h3
      obtain ⟨l, hl, a, z, rfl, rfl, h1, h2, h3⟩ := h3
      exact ⟨l, hl, h1, h2, h3⟩
    · rintro ⟨l, hl, h1, h2, rfl⟩
      refine ⟨fun _ => .ref l.tx, ⟨fun _ => trivial, by simp [txIdsQuery], ?_⟩, rfl⟩
      simp only [txIdsQuery, SatAll, Sat, and_true, FnSat, int_denotes]
      exact ⟨l, hl, _, _, rfl, rfl, h1, h2, rfl⟩
  have ht : Treated k db (fun _ => False) (txIdsQuery x (.int t1) (.int t2)) ⟨[], []⟩ [x] := by
    refine ⟨⟨hk, ⟨AMap.wf_nil, by simp, by simp⟩, by simp [txIdsQuery], ?_, looseOnce_false _, by simp [txIdsQuery]⟩, hd, ?_, ⟨x, by simp, by simp [txIdsQuery]⟩, ?_⟩
    · refine .simple ?_
      simp [txIdsQuery, WhereClause.SimpleAll, WhereClause.Simple]
    · simp [txIdsQuery, WhereClause.usesAll, WhereClause.uses]
    · intro ρ hρ y hy
      rw [List.mem_singleton] at hy
      subst hy
      obtain ⟨l, -, -, -, e⟩ := (hans _).mp ⟨ρ, hρ, rfl⟩
      rw [e]; exact ⟨by simp, by simp, by simp⟩
  obtain ⟨rows, h1, h2, -, h4, h5⟩ := C45_rows_partial ht rfl rfl h
  have hrow : ∀ row ∈ rows, ∃ t, row = [.ref t] := by
    intro row hr
    obtain ⟨ρ, hρ, rfl⟩ := h2 row hr
    obtain ⟨l, -, -, -, e⟩ := (hans _).mp ⟨ρ, hρ, rfl⟩
    exact ⟨l.tx, by simp [e]⟩
  have : ∀ rows : List (List TypedValue), (∀ row ∈ rows, ∃ t, row = [.ref t]) → ∃ ts : List Entid, rows = ts.map fun t => [.ref t] := by
    intro rows
    induction rows with
    | nil => intro _; exact ⟨[], rfl⟩
    | cons row rows ih =>
      intro h
      obtain ⟨t, rfl⟩ := h row (by simp)
      obtain ⟨ts, rfl⟩ := ih fun r hr => h r (by simp [hr])
      exact ⟨t :: ts, rfl⟩
  obtain ⟨ts, rfl⟩ := this rows hrow
  have hflat : ∀ ts : List Entid, (ts.map fun t => [TypedValue.ref t]).flatten = ts.map .ref := by
    intro ts; induction ts with
    | nil => rfl
    | cons t ts ih => simp [ih]
  refine ⟨ts, by rw [h1, hflat]; rfl, List.Pairwise.of_map (S := (· ≠ ·)) _ (fun a b h e => h (by rw [e])) (h5 rfl), fun t => ⟨fun hm => ?_, ?_⟩⟩
  · obtain ⟨ρ, hρ, e⟩ := h2 _ (List.mem_map.mpr ⟨t, hm, rfl⟩)
    obtain ⟨l, hl, g1, g2, e'⟩ := (hans _).mp ⟨ρ, hρ, rfl⟩
    simp only [List.map_cons, List.map_nil, List.cons.injEq, and_true] at e
    rw [e'] at e
    cases e
    exact ⟨⟨l, hl, rfl⟩, g1, g2⟩
  · rintro ⟨⟨l, hl, rfl⟩, g1, g2⟩
    obtain ⟨ρ, hρ, e⟩ := (hans _).mpr ⟨l, hl, g1, g2, rfl⟩
    have := h4 (fun _ _ => id) [.ref l.tx] ⟨ρ, hρ, by simp [e]⟩
    simpa using this

/-- What a row of the log shows. -/
def LogRow.shown (l : LogRow) : List TypedValue := [.ref l.e, .ref l.a, l.v, .ref l.tx, .boolean l.added]

/-- C62.  `(tx-data $ t)` gives exactly the rows of the log of the transaction `t`, each once: their
entity, attribute, value, transaction and whether they were added.  It is assumed that no row is of a
fulltext attribute, see `C62_fails_fulltext`, that the rows of an attribute have values of one type, and
that the values can be read back, see C01. -/
theorem C62_tx_data_partial (hk : k.cache = none) (hd : DbOk k.schema db) (hl : LogOk db)
    (htyped : ∀ l ∈ db.main, ∀ l' ∈ db.main, l.a = l'.a → l.v.valueType = l'.v.valueType)
    (hread : ∀ l ∈ db.main, l.v.Readable) {e a v tx added : Var} (hn : [e, a, v, tx, added].Nodup) {t : Int}
    (h : runQuery fl k db (txDataQuery e a v tx added (.int t)) ⟨[], []⟩ = .ok r) :
    ∃ rows : List (List TypedValue), r = .rel 5 rows.flatten ∧ rows.Nodup ∧
      ∀ row, row ∈ rows ↔ ∃ l ∈ db.main, l.tx = t ∧ row = l.shown := by
  have hans : ∀ row, Answers k.schema db.facts (txDataQuery e a v tx added (.int t)) [] [e, a, v, tx, added] row ↔
      ∃ l ∈ db.main, l.tx = t ∧ row = l.shown := by
    intro row
    constructor
    · rintro ⟨ρ, ⟨-, -, h3⟩, rfl⟩
      simp only [txDataQuery, SatAll, Sat, and_true, FnSat, int_denotes] at h3
      obtain ⟨l, hl, h1, h2, h3, h4, h5, h6⟩ := h3
      simp only [Binding.vars, List.getElem?_cons_zero, List.getElem?_cons_succ, Holds?] at h2 h3 h4 h5 h6
      exact ⟨l, hl, h1, by simp [LogRow.shown, h2, h3, h4, h5, h6]⟩
    · rintro ⟨l, hm, h1, rfl⟩
      simp only [List.nodup_cons, List.mem_cons, List.not_mem_nil, or_false, not_or] at hn
      obtain ⟨⟨n1, n2, n3, n4⟩, ⟨n5, n6, n7⟩, ⟨n8, n9⟩, n10, -⟩ := hn
      have g1 : assign [(e, .ref l.e), (a, .ref l.a), (v, l.v), (tx, .ref l.tx), (added, .boolean l.added)] e = .ref l.e := by
        simp [assign, AMap.get_cons]
      have g2 : assign [(e, .ref l.e), (a, .ref l.a), (v, l.v), (tx, .ref l.tx), (added, .boolean l.added)] a = .ref l.a := by
        simp [assign, AMap.get_cons, n1]
      have g3 : assign [(e, .ref l.e), (a, .ref l.a), (v, l.v), (tx, .ref l.tx), (added, .boolean l.added)] v = l.v := by
        simp [assign, AMap.get_cons, n2, n5]
      have g4 : assign [(e, .ref l.e), (a, .ref l.a), (v, l.v), (tx, .ref l.tx), (added, .boolean l.added)] tx = .ref l.tx := by
        simp [assign, AMap.get_cons, n3, n6, n8]
      have g5 : assign [(e, .ref l.e), (a, .ref l.a), (v, l.v), (tx, .ref l.tx), (added, .boolean l.added)] added = .boolean l.added := by
        simp [assign, AMap.get_cons, n4, n7, n9, n10]
      refine ⟨assign [(e, .ref l.e), (a, .ref l.a), (v, l.v), (tx, .ref l.tx), (added, .boolean l.added)],
        ⟨assign_proper ?_, by simp [txDataQuery], ?_⟩, ?_⟩
      · intro p hp
        simp only [List.mem_cons, List.not_mem_nil, or_false] at hp
        rcases hp with rfl | rfl | rfl | rfl | rfl
        · trivial
        · trivial
        · exact hl.proper l hm
        · trivial
        · trivial
      · simp only [txDataQuery, SatAll, Sat, and_true, FnSat, int_denotes]
        refine ⟨l, hm, h1, g1, g2, g3, g4, g5⟩
      · simp only [List.map_cons, List.map_nil, g1, g2, g3, g4, g5, LogRow.shown]
  have hn' := hn
  simp only [List.nodup_cons, List.mem_cons, List.not_mem_nil, or_false, not_or] at hn'
  obtain ⟨⟨n1, n2, n3, n4⟩, ⟨n5, n6, n7⟩, ⟨n8, n9⟩, n10, -⟩ := hn'
  have ht : Treated k db (fun y => y = v) (txDataQuery e a v tx added (.int t)) ⟨[], []⟩ [e, a, v, tx, added] := by
    refine ⟨⟨hk, ⟨AMap.wf_nil, by simp, by simp⟩, by simp [txDataQuery], ?_, ?_, by simp [txDataQuery]⟩, hd,
      fun o ho => by
        cases o with
        | log => exact hl
        | texts => simp [txDataQuery, WhereClause.usesAll, WhereClause.uses] at ho,
      ⟨e, by simp, by simp [txDataQuery]⟩, ?_⟩
    · refine .simple ?_
      simp only [txDataQuery, WhereClause.SimpleAll, WhereClause.Simple, and_true, Binding.vars]
      refine ⟨by simp [argVars], ?_⟩
      intro i y hy
      rcases i with _ | _ | _ | _ | _ | i <;> simp at hy <;> subst hy <;> simp [n2, n5, Ne.symm n8, Ne.symm n9]
    · unfold LooseOnce
      simp [txDataQuery]
    · intro ρ hρ y hy
      obtain ⟨l, hm, -, e1⟩ := (hans _).mp ⟨ρ, hρ, rfl⟩
      have : ρ y ∈ [e, a, v, tx, added].map ρ := List.mem_map.mpr ⟨y, hy, rfl⟩
      rw [e1] at this
      simp only [LogRow.shown, List.mem_cons, List.not_mem_nil, or_false] at this
      rcases this with h | h | h | h | h <;> rw [h]
      · exact ⟨by simp, by simp, by simp⟩
      · exact ⟨by simp, by simp, by simp⟩
      · exact hread l hm
      · exact ⟨by simp, by simp, by simp⟩
      · exact ⟨by simp, by simp, by simp⟩
  obtain ⟨rows, h1, h2, h3, -, h5⟩ := C45_rows_partial ht rfl rfl h
  refine ⟨rows, h1, h5 rfl, fun row => ⟨fun hr => (hans row).mp (h2 row hr), fun hr => ?_⟩⟩
  obtain ⟨row', hr', hal⟩ := h3 row ((hans row).mpr hr)
  obtain ⟨l', hm', -, rfl⟩ := (hans row').mp (h2 row' hr')
  obtain ⟨l, hm, -, rfl⟩ := hr
  have : l.shown = l'.shown := by
    unfold LogRow.shown at hal ⊢
    simp only [List.forall₂_cons] at hal
    obtain ⟨a1, a2, a3, a4, a5, -⟩ := hal
    have e1 : l.e = l'.e := by simpa [TypedValue.Alike, TypedValue.number?] using a1
    have e2 : l.a = l'.a := by simpa [TypedValue.Alike, TypedValue.number?] using a2
    have e4 : l.tx = l'.tx := by simpa [TypedValue.Alike, TypedValue.number?] using a4
    have e5 : l.added = l'.added := by simpa [TypedValue.Alike, TypedValue.number?] using a5
    rw [e1, e2, e4, e5, Alike.eq_of_type a3 (htyped l hm l' hm' e2)]
  rw [this]; exact hr'

end

/-! ### The queries succeed -/

namespace QueryEx

theorem lookupRows_total {ts : List TIndex} : ∀ {rows : List (List SqlValue)},
    (∀ row ∈ rows, ∃ vs, lookupAll row ts = .ok vs) → ∃ vs, lookupRows ts rows = .ok vs
  | [], _ => ⟨[], rfl⟩
  | row :: rows, h => by
    obtain ⟨v, hv⟩ := h row (by simp)
    obtain ⟨vs, hvs⟩ := lookupRows_total (rows := rows) fun r hr => h r (by simp [hr])
    exact ⟨v :: vs, by rw [lookupRows, hv, hvs]; rfl⟩

set_option maxRecDepth 10000 in
/-- The query of `C62_tx_ids` succeeds, whatever the log and the bounds. -/
theorem C62_tx_ids_total (fl : Floats) (s : Schema) (db : Tables) (t1 t2 : Int) :
    ∃ r, runQuery fl ⟨s, none⟩ db (txIdsQuery x (.int t1) (.int t2)) ⟨[], []⟩ = .ok r := by
  have key : ∃ (al : Alias) (c : Col) (wh : List Constraint), al.table = .transactions ∧
      runQuery fl ⟨s, none⟩ db (txIdsQuery x (.int t1) (.int t2)) ⟨[], []⟩ =
        (lookupRows [.known 0 0] (evalSelect db [] (.mk true [(.col al .tx, c)] [.table al] wh [] none))).bind
          fun vs => .ok (.rel 1 vs.flatten) := ⟨⟨.transactions, 0⟩, _, _, rfl, rfl⟩
  obtain ⟨al, c, wh, hal, hq⟩ := key
  rw [hq]
  obtain ⟨vs, hvs⟩ := lookupRows_total (ts := [.known 0 0])
    (rows := evalSelect db [] (.mk true [(.col al .tx, c)] [.table al] wh [] none)) (by
      intro row hr
      rw [evalSelect] at hr
      have hr := finishRows_mem row hr
      simp only [List.mem_map, List.mem_filter, evalFrom, evalTable, hal, STable.alias, List.mem_flatMap] at hr
      obtain ⟨loc, ⟨⟨sr, hsr, loc', h0, rfl⟩, -⟩, rfl⟩ := hr
      simp only [List.mem_singleton] at h0
      subst h0
      simp only [Tables.tableRows, List.mem_map] at hsr
      obtain ⟨l, -, rfl⟩ := hsr
      refine ⟨[.ref l.tx], ?_⟩
      simp only [List.map_cons, List.map_nil, SExpr.eval, Env.get, List.cons_append, List.nil_append, AMap.get_cons, if_true,
        Option.getD_some]
      rfl)
  rw [hvs]
  exact ⟨_, rfl⟩

/-! ### Examples -/

def added : Var := "added".toList

/-- Three transactions, the last of them moved to another timeline. -/
def logged : Tables :=
  { store with log := [⟨20, 10, .long 1, 1000, true, 0⟩, ⟨21, 14, .double (2 ^ 1074), 1000, true, 0⟩,
      ⟨20, 10, .long 1, 1001, false, 0⟩, ⟨20, 10, .long 2, 1001, true, 0⟩, ⟨20, 13, .boolean true, 1002, true, 0⟩,
      ⟨20, 10, .long 3, 1003, true, 1⟩] }

theorem logged_ok : DbOk schema logged ∧ LogOk logged ∧ (∀ l ∈ logged.main, l.v.Readable) ∧
    ∀ l ∈ logged.main, ∀ l' ∈ logged.main, l.a = l'.a → l.v.valueType = l'.v.valueType := by
  have hmem : ∀ l ∈ logged.main, l ∈ [(⟨20, 10, .long 1, 1000, true, 0⟩ : LogRow), ⟨21, 14, .double (2 ^ 1074), 1000, true, 0⟩,
      ⟨20, 10, .long 1, 1001, false, 0⟩, ⟨20, 10, .long 2, 1001, true, 0⟩, ⟨20, 13, .boolean true, 1002, true, 0⟩] := by
    intro l hl; exact hl
  refine ⟨⟨store_ok.typed, store_ok.proper, store_ok.ft, store_ok.ftString⟩, ⟨?_, ?_⟩, ?_, ?_⟩
  · intro l hl
    have := hmem l hl
    simp only [List.mem_cons, List.not_mem_nil, or_false] at this
    rcases this with rfl | rfl | rfl | rfl | rfl <;> trivial
  · intro l hl
    have := hmem l hl
    simp only [List.mem_cons, List.not_mem_nil, or_false] at this
    rcases this with rfl | rfl | rfl | rfl | rfl <;> rfl
  · intro l hl
    have := hmem l hl
    simp only [List.mem_cons, List.not_mem_nil, or_false] at this
    rcases this with rfl | rfl | rfl | rfl | rfl <;> exact ⟨by simp, by simp, by simp⟩
  · intro l hl l' hl'
    have := hmem l hl
    have := hmem l' hl'
    simp only [List.mem_cons, List.not_mem_nil, or_false] at *
    rcases ‹l = _ ∨ _› with rfl | rfl | rfl | rfl | rfl <;> rcases ‹l' = _ ∨ _› with rfl | rfl | rfl | rfl | rfl <;>
      simp [TypedValue.valueType]

/-- The half-open range: the transaction of the lower bound is there, that of the upper is not. -/
theorem C62_example_ids :
    runQuery floats ⟨schema, none⟩ logged (txIdsQuery x (.int 1000) (.int 1002)) ⟨[], []⟩ = .ok (.rel 1 [.ref 1000, .ref 1001]) ∧
    runQuery floats ⟨schema, none⟩ logged (txIdsQuery x (.int 1001) (.int 1001)) ⟨[], []⟩ = .ok (.rel 1 []) ∧
    runQuery floats ⟨schema, none⟩ logged (txIdsQuery x (.int 0) (.int 2000)) ⟨[], []⟩ = .ok (.rel 1 [.ref 1000, .ref 1001, .ref 1002]) :=
  ⟨by decide +kernel, by decide +kernel, by decide +kernel⟩

theorem C62_example_data :
    runQuery floats ⟨schema, none⟩ logged (txDataQuery x y z w added (.int 1001)) ⟨[], []⟩ = .ok (.rel 5
      [.ref 20, .ref 10, .long 1, .ref 1001, .boolean false, .ref 20, .ref 10, .long 2, .ref 1001, .boolean true]) ∧
    runQuery floats ⟨schema, none⟩ logged (txDataQuery x y z w added (.int 1003)) ⟨[], []⟩ = .ok (.rel 5 []) :=
  ⟨by decide +kernel, by decide +kernel⟩

/-- The two functions together. -/
theorem C62_example_both :
    runQuery floats ⟨schema, none⟩ logged (find [w, x] [.whereFn .txIds [.src false, .int 1001, .int 1003] (.coll w),
      .whereFn .txData [.src false, .var w] (.rel [some x, none, none, none, none])]) ⟨[], []⟩ =
    .ok (.rel 2 [.ref 1001, .ref 20, .ref 1002, .ref 20]) := by decide +kernel

/-! ### Where the code does otherwise -/

/-- C62: the value of a fulltext attribute is kept in the log as the number of a row of the fulltext
table, which does not read as a string; the whole query fails. -/
theorem C62_fails_fulltext :
    runQuery floats ⟨schema, none⟩ { logged with log := [⟨22, 15, .string "hello".toList, 1000, true, 0⟩] }
      (txDataQuery x y z w added (.int 1000)) ⟨[], []⟩ = .err .badSqlValuePair := by decide +kernel

/-- C62: when the type of the variable for the value is known, the rows are not checked for it.  The log
of 1000 has the long 1, and no boolean. -/
theorem C62_fails_type :
    runQuery floats ⟨schema, none⟩ logged (find [x, z] [pat y "flag" (.var z),
      .whereFn .txData [.src false, .int 1000] (.rel [some x, none, some z])]) ⟨[], []⟩ =
      .ok (.rel 2 [.ref 20, .boolean true, .ref 21, .boolean true]) ∧
    ∀ l ∈ logged.log, l.tx = 1000 → ∀ b, l.v ≠ .boolean b := by
  refine ⟨by decide +kernel, ?_⟩
  intro l hl ht b
  simp only [logged, List.mem_cons, List.not_mem_nil, or_false] at hl
  rcases hl with rfl | rfl | rfl | rfl | rfl | rfl <;> simp at ht ⊢

end QueryEx
end Mentat
