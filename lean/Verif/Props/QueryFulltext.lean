import Verif.Props.QueryLog
import Verif.Props.Fulltext
import Verif.Props.Answers
import Verif.Proofs.KernelRfl
/-
C82: searching the fulltext strings in a query.
-/
namespace Mentat
open CC

/-- `[:find ?e ?t ?tx :where [(fulltext $ :attribute "search") [[?e ?t ?tx]]]]` -/
def searchQuery (e t tx : Var) (ident : Keyword) (what : Text) : FindQuery :=
  { find := .rel [.var e, .var t, .var tx],
    clauses := [.whereFn .fulltext [.src false, .kw ident, .const (.text what)] (.rel [some e, some t, some tx])] }

theorem kw_denotes {s : Schema} {ρ : Assign} {k : Keyword} {a n : Entid} (h : AMap.get s.identMap k = some a) :
    (FnArg.kw k).Denotes s ρ (.ref n) ↔ n = a := by
  simp [FnArg.Denotes, h, eq_comm]

section
variable {fl : Floats} {k : Known} {db : Tables} {r : QResult}

/-- C82.  `(fulltext $ attribute search)` gives exactly the datoms of the attribute whose string the search finds,
each once: their entity, string and transaction.  It gives none if the attribute is not a fulltext one. -/
theorem C82_search (hk : k.cache = none) (hd : DbOk k.schema db) (hs : SearchOk db) {ident : Keyword} {a : Entid}
    {at_ : Attribute} (hid : AMap.get k.schema.identMap ident = some a) (hat : k.schema.attr a = some at_)
    {e t tx : Var} (hn : [e, t, tx].Nodup) {what : Text}
    (h : runQuery fl k db (searchQuery e t tx ident what) ⟨[], []⟩ = .ok r) :
    ∃ rows : List (List TypedValue), r = .rel 3 rows.flatten ∧ rows.Nodup ∧
      ∀ row, row ∈ rows ↔ at_.fulltext = true ∧ ∃ d ∈ db.rows, d.a = a ∧ ∃ s, d.v = .string s ∧
        db.matches what s = true ∧ row = [.ref d.e, .string s, .ref d.tx] := by
  have hans : ∀ row, Answers k.schema db.facts (searchQuery e t tx ident what) [] [e, t, tx] row ↔
      at_.fulltext = true ∧ ∃ d ∈ db.rows, d.a = a ∧ ∃ s, d.v = .string s ∧
        db.matches what s = true ∧ row = [.ref d.e, .string s, .ref d.tx] := by
    intro row
    constructor
    · rintro ⟨ρ, ⟨-, -, h3⟩, rfl⟩
      simp only [searchQuery, SatAll, Sat, and_true, FnSat, kw_denotes hid] at h3
      obtain ⟨d, hm, at', s, p, rfl, h1, h2, h3, h4, h5, h6, h7, h8, -⟩ := h3
      simp only [Binding.vars, List.getElem?_cons_zero, List.getElem?_cons_succ, Holds?] at h6 h7 h8
      rw [hat] at h1
      cases h1
      simp only [FnArg.Denotes, NIC.denotes, Option.some.injEq, TypedValue.string.injEq] at h4
      subst h4
      exact ⟨h2, d, hm, rfl, s, h3, h5, by simp [h6, h7, h8]⟩
    · rintro ⟨hf, d, hm, rfl, s, h1, h2, rfl⟩
      simp only [List.nodup_cons, List.mem_cons, List.not_mem_nil, or_false, not_or] at hn
      obtain ⟨⟨n1, n2⟩, n3, -⟩ := hn
      have g1 : assign [(e, .ref d.e), (t, .string s), (tx, .ref d.tx)] e = .ref d.e := by
        simp [assign, AMap.get_cons]
      have g2 : assign [(e, .ref d.e), (t, .string s), (tx, .ref d.tx)] t = .string s := by
        simp [assign, AMap.get_cons, n1]
      have g3 : assign [(e, .ref d.e), (t, .string s), (tx, .ref d.tx)] tx = .ref d.tx := by
        simp [assign, AMap.get_cons, n2, n3]
      refine ⟨assign [(e, .ref d.e), (t, .string s), (tx, .ref d.tx)], ⟨assign_proper ?_, by simp [searchQuery], ?_⟩, ?_⟩
      · intro p hp
        simp only [List.mem_cons, List.not_mem_nil, or_false] at hp
        rcases hp with rfl | rfl | rfl <;> trivial
      · simp only [searchQuery, SatAll, Sat, and_true, FnSat, kw_denotes hid]
        exact ⟨d, hm, at_, s, what, rfl, hat, hf, h1, rfl, h2, g1, g2, g3, trivial⟩
      · simp only [List.map_cons, List.map_nil, g1, g2, g3]
  have ht : Treated k db (fun _ => False) (searchQuery e t tx ident what) ⟨[], []⟩ [e, t, tx] := by
    refine ⟨⟨hk, ⟨AMap.wf_nil, by simp, by simp⟩, by simp [searchQuery], ?_, looseOnce_false _, by simp [searchQuery]⟩, hd, ?_,
      ⟨e, by simp, by simp [searchQuery]⟩, ?_⟩
    · refine .simple ?_
      simp [searchQuery, WhereClause.SimpleAll, WhereClause.Simple, Binding.vars]
    · intro o ho
      cases o with
      | log => simp [searchQuery, WhereClause.usesAll, WhereClause.uses] at ho
      | texts => exact hs
    · intro ρ hρ y hy
      obtain ⟨-, d, hm, -, s, -, -, e1⟩ := (hans _).mp ⟨ρ, hρ, rfl⟩
      have : ρ y ∈ [e, t, tx].map ρ := List.mem_map.mpr ⟨y, hy, rfl⟩
      rw [e1] at this
      simp only [List.mem_cons, List.not_mem_nil, or_false] at this
      rcases this with h | h | h <;> rw [h] <;> exact ⟨by simp, by simp, by simp⟩
  obtain ⟨rows, h1, h2, -, h4, h5⟩ := C45_rows_partial ht rfl rfl h
  exact ⟨rows, h1, h5 rfl, fun row => ⟨fun hr => (hans row).mp (h2 row hr), fun hr => h4 (fun _ _ => id) row ((hans row).mpr hr)⟩⟩

end

/-! ### The tables of a history -/

/-- The SQL value and the tag of a cell. -/
def Cell.sql : Cell → SqlValue × Nat
  | .val v => v.toSql
  | .rowid n => (.integer n, (TypedValue.string []).toSql.2)

/-- A row of `datoms` as SQLite has it. -/
def DiskRow.sql (r : DiskRow) : SRow := sqlRow r.e r.a r.v.sql.1 r.v.sql.2 r.tx true

/-- A row of `fulltext_values` as SQLite has it. -/
def FtRow.sql (r : FtRow) : SRow
  | .rowid => .integer r.rowid
  | .text => .text r.text
  | _ => .null

/-- What is queried after a history. -/
def DiskDb.tables (d : DiskDb) (finds : Text → Text → Bool) : Tables :=
  { d.db.tables (fun t => ((d.disk.texts.find? fun x => decide (x.text = t)).map fun x => (x.rowid : Int)).getD 0) with
    texts := d.disk.texts.map (·.text), «matches» := finds }

theorem find_text {ts : List FtRow} (h : (ts.map (·.text)).Nodup) {x : FtRow} (hx : x ∈ ts) :
    (ts.find? fun y => decide (y.text = x.text)) = some x := by
  induction ts with
  | nil => cases hx
  | cons y ts ih =>
    simp only [List.map_cons, List.nodup_cons, List.mem_map, not_exists, not_and] at h
    rw [List.find?_cons]
    rcases List.mem_cons.mp hx with rfl | hx
    · simp
    · have : y.text ≠ x.text := fun e => h.1 x hx e.symm
      simp only [this, decide_false]
      exact ih h.2 hx

theorem ftText_mem {ts : List FtRow} (h : (ts.map (·.rowid)).Nodup) {x : FtRow} (hx : x ∈ ts) : ftText ts x.rowid = x.text := by
  unfold ftText
  have : (ts.find? fun y => decide (y.rowid = x.rowid)) = some x := by
    induction ts with
    | nil => cases hx
    | cons y ts ih =>
      simp only [List.map_cons, List.nodup_cons, List.mem_map, not_exists, not_and] at h
      rw [List.find?_cons]
      rcases List.mem_cons.mp hx with rfl | hx
      · simp
      · have : y.rowid ≠ x.rowid := fun e => h.1 x hx e.symm
        simp only [this, decide_false]
        exact ih h.2 hx
  rw [this]; rfl

/-- C82, tables: after any history, the tables that a search joins are those on disk, and they are as `C82_search`
assumes. -/
theorem C82_tables {maxVars : Nat} {d : DiskDb} (h : ReachDisk maxVars d) (finds : Text → Text → Bool) :
    (d.tables finds).tableRows .datoms = d.disk.rows.map DiskRow.sql ∧
    (d.tables finds).tableRows .fulltextValues = d.disk.texts.map FtRow.sql ∧ SearchOk (d.tables finds) := by
  obtain ⟨j1, j2, j3⟩ := reachDisk_ok h
  have hid : ∀ x ∈ d.disk.texts, (d.tables finds).ftId x.text = x.rowid := by
    intro x hx
    show ((d.disk.texts.find? fun y => decide (y.text = x.text)).map fun x => (x.rowid : Int)).getD 0 = _
    rw [find_text j2.table.texts hx]; rfl
  have hft : ∀ a, (d.tables finds).ft a = ftOf d.schema a := by
    intro a
    show (d.schema.attr a).any (·.fulltext) = _
    unfold ftOf
    cases d.schema.attr a <;> rfl
  refine ⟨?_, ?_, ?_, ?_⟩
  · show (d.disk.rows.map (absRow d.disk.texts)).map _ = _
    rw [List.map_map]
    apply List.map_congr_left
    intro r hr
    obtain ⟨-, hc⟩ := j2.rows r hr
    simp only [Function.comp, Tables.rawRow, DiskRow.sql, absRow, Tables.rawValue, hft]
    cases hv : r.v with
    | val v =>
      rw [hv] at hc
      have hc : ftOf d.schema r.a = false := hc
      simp [hc, absCell, Cell.sql]
    | rowid n =>
      rw [hv] at hc
      obtain ⟨hc, x, hx, rfl⟩ := hc
      simp [hc, absCell, Cell.sql, ftText_mem j2.table.ids hx, hid x hx, TypedValue.toSql]
  · show (d.disk.texts.map (·.text)).map _ = _
    rw [List.map_map]
    apply List.map_congr_left
    intro x hx
    funext c
    cases c <;> simp [Tables.textRow, FtRow.sql, hid x hx]
  · intro r hr hf t ht
    obtain ⟨r0, hr0, rfl⟩ := List.mem_map.mp (show r ∈ d.disk.rows.map (absRow d.disk.texts) from hr)
    rw [hft] at hf
    obtain ⟨-, hc⟩ := j2.rows r0 hr0
    rw [show ftOf d.schema r0.a = true from hf] at hc
    simp only [absRow] at ht
    cases hv : r0.v with
    | val v => rw [hv] at hc; cases hc
    | rowid n =>
      rw [hv] at hc ht
      obtain ⟨-, x, hx, rfl⟩ := hc
      simp only [absCell, ftText_mem j2.table.ids hx, TypedValue.string.injEq] at ht
      subst ht
      exact List.mem_map_of_mem hx
  · intro t ht u hu e
    obtain ⟨x, hx, rfl⟩ := List.mem_map.mp (show t ∈ d.disk.texts.map (·.text) from ht)
    obtain ⟨y, hy, rfl⟩ := List.mem_map.mp (show u ∈ d.disk.texts.map (·.text) from hu)
    rw [hid x hx, hid y hy] at e
    have e : x.rowid = y.rowid := by exact_mod_cast e
    rw [← ftText_mem j2.table.ids hx, e, ftText_mem j2.table.ids hy]

/-- C82, histories: after any history of transactions of values that read back, a search over the tables on disk
gives exactly the datoms of the attribute that the transactions left and whose string it finds. -/
theorem C82_history {maxVars : Nat} {d : DiskDb} {db : Db} (h : RunsBoth maxVars d db) (hr : ReachData db)
    {finds : Text → Text → Bool} {ident : Keyword} {a : Entid} {at_ : Attribute}
    (hid : AMap.get db.schema.identMap ident = some a) (hat : db.schema.attr a = some at_)
    (hf : at_.fulltext = true) {e t tx : Var} (hn : [e, t, tx].Nodup) {what : Text} {fl : Floats} {r : QResult}
    (hq : runQuery fl ⟨db.schema, none⟩ (d.tables finds) (searchQuery e t tx ident what) ⟨[], []⟩ = .ok r) :
    ∃ rows : List (List TypedValue), r = .rel 3 rows.flatten ∧ rows.Nodup ∧
      ∀ row, row ∈ rows ↔ ∃ d ∈ db.store.rows, d.a = a ∧ ∃ s, d.v = .string s ∧ finds what s = true ∧
        row = [.ref d.e, .string s, .ref d.tx] := by
  obtain ⟨h1, rfl⟩ := runsBoth_ok h
  have ok := dbOk_reach hr (fun t => ((d.disk.texts.find? fun x => decide (x.text = t)).map fun x => (x.rowid : Int)).getD 0)
  obtain ⟨rows, e1, e2, e3⟩ := C82_search (k := ⟨d.db.schema, none⟩) (db := d.tables finds) rfl
    ⟨ok.typed, ok.proper, ok.ft, ok.ftString⟩ (C82_tables h1 finds).2.2 hid hat hn hq
  refine ⟨rows, e1, e2, fun row => ?_⟩
  rw [e3 row]
  simp only [hf, true_and]
  exact Iff.rfl

namespace QueryEx

set_option maxRecDepth 10000 in
/-- The query of `C82_search` succeeds, whatever the tables and the search. -/
theorem C82_total (fl : Floats) (s : Schema) (db : Tables) {ident : Keyword} {a : Entid} {at_ : Attribute}
    (hid : AMap.get s.identMap ident = some a) (hat : s.attr a = some at_) (what : Text) :
    ∃ r, runQuery fl ⟨s, none⟩ db (searchQuery x y z ident what) ⟨[], []⟩ = .ok r := by
  have h1 : ∀ cc : CC, applyFulltext cc s [.src false, .kw ident, .const (.text what)] (.rel [some x, some y, some z]) =
      if !at_.fulltext then .ok cc.markEmpty else
      ((cc.withTexts a).addWhere (.search cc.textAlias (.const (TypedValue.string what).toSql.1))).bindSearch s
        cc.textAlias cc.textDatoms [some x, some y, some z] := by
    intro cc
    have e1 : (Binding.rel [some x, some y, some z]).isEmpty = false := by decide +kernel
    have e2 : (Binding.rel [some x, some y, some z]).isValid = true := by decide +kernel
    simp [applyFulltext, e1, e2, searchAttribute, hid, Res.bind, hat, searchArgument]
  have key : runQuery fl ⟨s, none⟩ db (searchQuery x y z ident what) ⟨[], []⟩ =
      ((applyFulltext { counter := 0 } s [.src false, .kw ident, .const (.text what)] (.rel [some x, some y, some z])).bind fun cc =>
        cc.finish.bind fun cc => if (cc.inputs.filter fun x => (AMap.get cc.vals x).isNone).isEmpty then runAlgebrized fl db
          { find := .rel [.var x, .var y, .var z], withVars := [], named := [], order := [], limit := .none, cc := cc }
          else .err .unboundVariables) := by
    have e : applyClauses ⟨s, none⟩ { counter := 0 } (searchQuery x y z ident what).clauses =
        applyFulltext { counter := 0 } s [.src false, .kw ident, .const (.text what)] (.rel [some x, some y, some z]) := by
      rw [applyClauses, searchQuery]
      show applyRun ⟨s, none⟩ { counter := 0 } [] _ = _
      rw [applyRun]
      · show (applyClause ⟨s, none⟩ { counter := 0 } _).bind _ = _
        rw [applyClause, applyWhereFn]
        generalize applyFulltext _ _ _ _ = o
        cases o <;> rfl
      all_goals simp
    show Res.bind (Res.bind (Res.bind (applyClauses ⟨s, none⟩ { counter := 0 } (searchQuery x y z ident what).clauses) _) _) _ = _
    rw [e]
    generalize applyFulltext _ _ _ _ = o
    cases o with
    | ok cc =>
      show Res.bind (Res.bind (Res.bind cc.finish _) _) _ = Res.bind cc.finish _
      generalize cc.finish = o
      cases o with
      | ok cc =>
        show Res.bind (if (cc.inputs.filter fun x => (AMap.get cc.vals x).isNone).isEmpty then
          Res.ok (⟨.rel [.var x, .var y, .var z], [], [], [], .none, cc⟩ : Algebraic)
          else .err .unboundVariables) _ = if (cc.inputs.filter fun x => (AMap.get cc.vals x).isNone).isEmpty then _ else _
        split <;> rfl
      | err e => rfl
      | panic => rfl
    | err e => rfl
    | panic => rfl
  rw [key, h1]
  cases hf : at_.fulltext with
  | false => exact ⟨.rel 3 [], rfl⟩
  | true =>
    have key2 : ∃ (al be : Alias) (c d g : Col) (wh : List Constraint), al.table = .fulltextValues ∧
      be.table = .datoms ∧ al ≠ be ∧
      (Res.bind (bindSearch ((({ counter := 0 } : CC).withTexts a).addWhere
          (.search (textAlias { counter := 0 }) (.const (TypedValue.string what).toSql.1))) s
          (textAlias { counter := 0 }) (textDatoms { counter := 0 }) [some x, some y, some z]) fun cc =>
        cc.finish.bind fun cc => if (cc.inputs.filter fun x => (AMap.get cc.vals x).isNone).isEmpty then runAlgebrized fl db
          { find := .rel [.var x, .var y, .var z], withVars := [], named := [], order := [], limit := .none, cc := cc }
          else .err .unboundVariables) =
        (lookupRows [.known 0 0, .known 1 10, .known 2 0] (evalSelect db []
          (.mk true [(.col be .e, c), (.col al .text, d), (.col be .tx, g)] [.table al, .table be] wh [] none))).bind
          fun vs => .ok (.rel 3 vs.flatten) :=
      ⟨⟨.fulltextValues, 0⟩, ⟨.datoms, 1⟩, .var x, .var y, .var z,
        [eqEntid (⟨.datoms, 1⟩, .a) a, eqCol (⟨.datoms, 1⟩, .v) (⟨.fulltextValues, 0⟩, .rowid),
          .search ⟨.fulltextValues, 0⟩ (.const (TypedValue.string what).toSql.1)], rfl, rfl, by decide, by kernel_rfl⟩
    obtain ⟨al, be, c, d, g, wh, hal, hbe, hne, hq⟩ := key2
    simp only [Bool.not_true, Bool.false_eq_true, if_false]
    rw [hq]
    obtain ⟨vs, hvs⟩ := lookupRows_total (ts := [.known 0 0, .known 1 10, .known 2 0])
      (rows := evalSelect db []
        (.mk true [(.col be .e, c), (.col al .text, d), (.col be .tx, g)] [.table al, .table be] wh [] none)) (by
        intro row hr
        rw [evalSelect] at hr
        have hr := finishRows_mem row hr
        simp only [List.mem_map, List.mem_filter, evalFrom, evalTable, hal, hbe, STable.alias, List.mem_flatMap] at hr
        obtain ⟨loc, ⟨⟨sr, hsr, loc', ⟨sr2, hsr2, loc2, h0, rfl⟩, rfl⟩, -⟩, rfl⟩ := hr
        simp only [List.mem_singleton] at h0
        subst h0
        simp only [Tables.tableRows, List.mem_map] at hsr hsr2
        obtain ⟨t, -, rfl⟩ := hsr
        obtain ⟨l, -, rfl⟩ := hsr2
        refine ⟨[.ref l.e, .string t, .ref l.tx], ?_⟩
        simp only [List.map_cons, List.map_nil, SExpr.eval, Env.get, List.cons_append, List.nil_append, AMap.get_cons, if_true,
          Option.getD_some, if_neg hne, if_neg (Ne.symm hne)]
        rfl)
    rw [hvs]
    exact ⟨_, rfl⟩

/-! ### Examples -/

/-- Four strings on disk, one of them of two datoms and one of none; a search finds the strings it begins. -/
def searched : Tables :=
  { store with
    rows := [datom 20 15 (.string "hello".toList), datom 21 15 (.string "help".toList), datom 22 15 (.string "hello".toList),
      datom 22 15 (.string "world".toList), datom 20 10 (.long 1), datom 22 10 (.long 2), datom 20 11 (.string "hello".toList)]
    ftId := fun t => if t = "hello".toList then 1 else if t = "help".toList then 2 else if t = "world".toList then 3 else 4
    texts := ["hello".toList, "help".toList, "world".toList, "held".toList]
    «matches» := fun p t => decide (t.take p.length = p) }

theorem searched_ok : DbOk schema searched ∧ SearchOk searched := by
  refine ⟨⟨?_, ?_, ?_, ?_⟩, ?_, ?_⟩
  · intro r hr
    simp only [searched, datom, List.mem_cons, List.not_mem_nil, or_false] at hr
    rcases hr with rfl | rfl | rfl | rfl | rfl | rfl | rfl <;> exact ⟨_, rfl, rfl⟩
  · intro r hr
    simp only [searched, datom, List.mem_cons, List.not_mem_nil, or_false] at hr
    rcases hr with rfl | rfl | rfl | rfl | rfl | rfl | rfl <;> trivial
  · exact store_ok.ft
  · exact store_ok.ftString
  · intro r hr hf t ht
    simp only [searched, datom, List.mem_cons, List.not_mem_nil, or_false] at hr
    rcases hr with rfl | rfl | rfl | rfl | rfl | rfl | rfl <;> simp only [TypedValue.string.injEq, reduceCtorEq] at ht <;> subst ht
    · decide +kernel
    · decide +kernel
    · decide +kernel
    · decide +kernel
    · revert hf; decide +kernel
  · decide +kernel

/-- Both datoms of a string, and none of the string that no datom has; a second attribute with the same string is
left out. -/
theorem C82_example :
    runQuery floats ⟨schema, none⟩ searched (searchQuery x y z (kw "text") "hel".toList) ⟨[], []⟩ =
      .ok (.rel 3 [.ref 20, .string "hello".toList, .ref 1000, .ref 22, .string "hello".toList, .ref 1000,
        .ref 21, .string "help".toList, .ref 1000]) ∧
    runQuery floats ⟨schema, none⟩ searched (searchQuery x y z (kw "text") "z".toList) ⟨[], []⟩ = .ok (.rel 3 []) ∧
    runQuery floats ⟨schema, none⟩ searched (searchQuery x y z (kw "name") "hel".toList) ⟨[], []⟩ = .ok (.rel 3 []) :=
  ⟨by decide +kernel, by decide +kernel, by decide +kernel⟩

/-- `[(fulltext $ :f/text "search") [[?e ?t]]]` -/
def search (e t : Var) (what : FnArg) : WhereClause :=
  .whereFn .fulltext [.src false, .kw (kw "text"), what] (.rel [some e, some t])

/-- With patterns, a disjunction, a negation, and a search for what another datom has. -/
theorem C82_example_clauses :
    runQuery floats ⟨schema, none⟩ searched
      (find [x, w] [search x y (.const (.text "hel".toList)), pat x "long" (.var w)]) ⟨[], []⟩ =
      .ok (.rel 2 [.ref 20, .long 1, .ref 22, .long 2]) ∧
    runQuery floats ⟨schema, none⟩ searched
      (find [x] [.or none [.clause (search x y (.const (.text "wor".toList))), .clause (pat x "name" (.var y))]]) ⟨[], []⟩ =
      .ok (.rel 1 [.ref 22, .ref 20]) ∧
    runQuery floats ⟨schema, none⟩ searched
      (find [x, y] [pat x "text" (.var y), .not none [search x y (.const (.text "hello".toList))]]) ⟨[], []⟩ =
      .ok (.rel 2 [.ref 21, .string "help".toList, .ref 22, .string "world".toList]) ∧
    runQuery floats ⟨schema, none⟩ searched
      (find [x, z] [pat x "name" (.var y), search z w (.var y)]) ⟨[], []⟩ =
      .ok (.rel 2 [.ref 20, .ref 20, .ref 20, .ref 22]) :=
  ⟨by decide +kernel, by decide +kernel, by decide +kernel, by decide +kernel⟩

/-! ### Where the code does otherwise -/

/-- C82: a search whose text is given, or is known, panics. -/
theorem C82_fails_panic :
    runQuery floats ⟨schema, none⟩ searched { find := .rel [.var x], inVars := [y], clauses := [search x y (.const (.text "hel".toList))] }
      ⟨[], [(y, .string "hello".toList)]⟩ = .panic ∧
    runQuery floats ⟨schema, none⟩ searched
      (find [x] [.whereFn .ground [.const (.text "hello".toList)] (.scalar y), search x y (.const (.text "hel".toList))])
      ⟨[], []⟩ = .panic :=
  ⟨by decide +kernel, by decide +kernel⟩

/-- C82: a search for what a later clause finds is refused; with the clauses the other way round it is answered
(`C82_example_clauses`). -/
theorem C82_fails_order :
    runQuery floats ⟨schema, none⟩ searched
      (find [x, z] [search z w (.var y), pat x "name" (.var y)]) ⟨[], []⟩ = .err .other := by decide +kernel

/-- C82: the score of every string is zero. -/
theorem C82_score :
    runQuery floats ⟨schema, none⟩ searched (find [x, w] [.whereFn .fulltext
      [.src false, .kw (kw "text"), .const (.text "hel".toList)] (.rel [some x, none, none, some w])]) ⟨[], []⟩ =
      .ok (.rel 2 [.ref 20, .double 0, .ref 22, .double 0, .ref 21, .double 0]) := by decide +kernel

end QueryEx

theorem runDisk_data {txs : List Tx} : ∀ {d d' : DiskDb} {db' : Db}, ReachDisk 999 d → runDisk 999 txs d = some d' →
    runDataFrom txs d.db = some db' → d'.db = db' := by
  induction txs with
  | nil =>
    intro d d' db' _ h h'
    simp only [runDisk, runDataFrom, Option.some.injEq] at h h'
    rw [← h, h']
  | cons t rest ih =>
    intro d d' db' hr h h'
    obtain ⟨terms, ids⟩ := t
    unfold runDisk at h
    unfold runDataFrom at h'
    split at h
    · rename_i hk
      split at h
      · rename_i d1 rep ht
        split at h
        · rename_i hku
          obtain ⟨j1, j2, j3⟩ := reachDisk_ok hr
          obtain ⟨b, hb, rfl, -⟩ := (diskTransact_refines j2 j3 (rowsInv_reach j1).2).of_ok ht
          split at h'
          · rw [show transactTerms d.db 0 terms ids = .ok (d1.db, rep) from hb] at h'
            simp only [if_pos hku] at h'
            exact ih (.step hr hk ht hku) h h'
          · cases h'
        · cases h
      · cases h
    · cases h

theorem diskRun_data {txs : List Tx} {d : DiskDb} {db : Db} (h : diskRun txs = some d) (h' : runDataFrom txs bootDb = some db) :
    d.db = db := by
  unfold diskRun at h
  split at h
  · rename_i d0 h0
    have h1 : createCurrentVersion 0 = .ok d0.db := by
      unfold diskCreate at h0
      rw [Res.bind_eq_ok] at h0
      obtain ⟨s, h1, h0⟩ := h0
      rw [Res.bind_eq_ok] at h0
      obtain ⟨⟨d1, rep⟩, h2, h0⟩ := h0
      obtain ⟨b, hb, rfl, -⟩ := (diskTransact_refines (diskOk_empty _) (bootstrapSchema_fulltext h1)
        (bootstrapSchema_txInstant h1)).of_ok h2
      unfold createCurrentVersion
      rw [Res.bind_eq_ok]
      refine ⟨s, h1, ?_⟩
      rw [Res.bind_eq_ok]
      refine ⟨_, hb, ?_⟩
      simp only at h0 ⊢
      split at h0
      · rename_i hsame
        simp only [Res.pure_eq, Res.ok.injEq] at h0
        subst h0
        rw [if_pos (show Schema.same d1.db.schema s = true from hsame)]
        rfl
      · simp at h0
    rw [bootDb_eq, Res.ok.injEq] at h1
    rw [h1] at h'
    exact runDisk_data (.boot h0) h h'
  · cases h

set_option maxRecDepth 100000 in
/-- A history that meets the hypotheses of `C82_history`, and two searches of it: both datoms of a text, and none of
one that has only a retracted datom. -/
theorem C82_example_history : ∃ d, RunsBoth 999 d d.db ∧ ReachData d.db ∧
    runQuery QueryEx.floats ⟨d.db.schema, none⟩ (d.tables fun p t => decide (t.take p.length = p))
      (searchQuery QueryEx.x QueryEx.y QueryEx.z (kw "x" "text") "he".toList) ⟨[], []⟩ =
      .ok (.rel 3 [.ref 65537, str "hello", .ref 268435458, .ref 65538, str "hello", .ref 268435458]) ∧
    runQuery QueryEx.floats ⟨d.db.schema, none⟩ (d.tables fun p t => decide (t.take p.length = p))
      (searchQuery QueryEx.x QueryEx.y QueryEx.z (kw "x" "text") "wo".toList) ⟨[], []⟩ = .ok (.rel 3 []) := by
  have hrun : (diskRun [ftTx1, ftTx2, ftTx3]).any (fun d => decide (
      runQuery QueryEx.floats ⟨d.db.schema, none⟩ (d.tables fun p t => decide (t.take p.length = p))
        (searchQuery QueryEx.x QueryEx.y QueryEx.z (kw "x" "text") "he".toList) ⟨[], []⟩ =
        .ok (.rel 3 [.ref 65537, str "hello", .ref 268435458, .ref 65538, str "hello", .ref 268435458]) ∧
      runQuery QueryEx.floats ⟨d.db.schema, none⟩ (d.tables fun p t => decide (t.take p.length = p))
        (searchQuery QueryEx.x QueryEx.y QueryEx.z (kw "x" "text") "wo".toList) ⟨[], []⟩ = .ok (.rel 3 []))) = true := by
    decide +kernel
  have hdata : (runDataFrom [ftTx1, ftTx2, ftTx3] bootDb).isSome = true := by decide +kernel
  cases hd : diskRun [ftTx1, ftTx2, ftTx3] with
  | none => rw [hd] at hrun; simp at hrun
  | some d =>
    cases hb : runDataFrom [ftTx1, ftTx2, ftTx3] bootDb with
    | none => rw [hb] at hdata; cases hdata
    | some db =>
      rw [hd, Option.any_some, decide_eq_true_eq] at hrun
      obtain rfl := diskRun_data hd hb
      exact ⟨d, C81_runs (diskRun_reach hd), runDataFrom_reach (.boot (Int.le_refl 0) bootDb_eq) hb, hrun⟩

end Mentat
