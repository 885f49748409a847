import Verif.Model.Prepared
import Verif.Props.InProgressQuery
import Verif.Proofs.Replay
/-
C93: a prepared query gives what the query gives when it is run.
-/
namespace Mentat
open CC

section
variable {fl : Floats} {k : Known} {db : Tables} {q : FindQuery} {inputs : Inputs} {xs : List Var} {r : QResult} {p : PreparedQuery}

theorem Res.bind_assoc' {α β γ : Type} (x : Res α) (f : α → Res β) (g : β → Res γ) :
    (x.bind f).bind g = x.bind fun a => (f a).bind g := by
  cases x <;> rfl

theorem prepare_run (fl : Floats) (db : Tables) (a : Algebraic) (i : Option Inputs) :
    runAlgebrized fl db a = (prepareAlgebrized a).bind fun p => p.run fl db i := by
  unfold runAlgebrized prepareAlgebrized
  split
  · rfl
  · split
    · rw [Res.bind_assoc']
      cases fromConstants a <;> rfl
    · rw [Res.bind_assoc']
      congr 1
      funext p
      unfold selectRows
      rw [Res.bind_assoc', Res.bind_assoc']
      congr 1
      funext limit
      cases p.outer with
      | none =>
        simp only [Res.bind_assoc']
        congr 1
        funext s
        unfold runSql Statement.prepare
        simp only
        cases scopedSelect [] s <;> rfl
      | some o =>
        obtain ⟨cols, gb⟩ := o
        simp only [Res.bind_assoc']
        congr 1
        funext s
        unfold runSql Statement.prepare
        simp only
        cases scopedSelect [] s with
        | false => rfl
        | true =>
          simp only [Bool.not_true, Bool.false_eq_true, if_false, if_true]
          generalize ho : (a.order.all fun o => decide (o.2 ∈ cols.map fun c => c.col.getD (.var [])) ||
            decide (o.2 ∈ p.cols.map (·.2))) = b
          cases b with
          | true => rfl
          | false =>
            show (aggregateRows fl _ _ _ _ _ _).bind _ = _
            unfold aggregateRows
            simp only [ho]
            rfl

/-- C93.  A query run once is the query prepared and run on the same store, whatever the outcome. -/
theorem C93_once (fl : Floats) (k : Known) (db : Tables) (q : FindQuery) (inputs : Inputs) (i : Option Inputs) :
    runQuery fl k db q inputs = (prepareQuery k q inputs).bind fun p => p.run fl db i := by
  unfold runQuery prepareQuery
  rw [Res.bind_assoc']
  congr 1
  funext a
  exact prepare_run fl db a i

/-- C93: a query that was prepared, run on any store, gives what the query would give there with what was known when it was
prepared. -/
theorem C93_run (h : prepareQuery k q inputs = .ok p) (fl : Floats) (db : Tables) (i : Option Inputs) :
    p.run fl db i = runQuery fl k db q inputs := by
  rw [C93_once fl k db q inputs i, h]; rfl

/-- C93.  If what the caches said when the query was prepared is what the store holds when it is run, the rows are the answers then. -/
theorem C93_rows_partial (hp : prepareQuery k q inputs = .ok p) (hk : k.Faithful db.rows) (hd : DbOk k.schema db)
    (hq : PlainQuery k q inputs)
    (hread : ∀ ρ, IsAnswer k.schema db.facts q inputs.values ρ → ∀ x ∈ xs, (ρ x).Readable) (hne : xs ≠ [])
    (hf : q.find = .rel (xs.map .var)) (hlim : q.limit = .none) {i : Option Inputs} (h : p.run fl db i = .ok r) :
    ∃ rows : List (List TypedValue), r = .rel xs.length rows.flatten ∧
      (∀ row, row ∈ rows ↔ Answers k.schema db.facts q inputs.values xs row) ∧ (q.order = none → rows.Nodup) :=
  C92_rows_partial hk hd hq hread hne hf hlim (by rw [← C93_run hp fl db i]; exact h)

end

/-! ### Later transactions -/

/-- Transactions that record nothing about idents or attributes. -/
inductive DataOnly : Db → Db → Prop
  | refl {db} : DataOnly db db
  | step {db db1 db2 now terms ids rep} : DataOnly db db1 → transactTerms db1 now terms ids = .ok (db2, rep) →
      (∀ l ∈ db2.store.log, l.tx = rep.txId →
        l.a ∉ [DB_IDENT, DB_CARDINALITY, DB_FULLTEXT, DB_INDEX, DB_IS_COMPONENT, DB_UNIQUE, DB_VALUE_TYPE]) → DataOnly db db2

theorem logRowsOf_tx {tx : Entid} {fs : List Found} {l : LogRow} (h : l ∈ logRowsOf tx fs) : l.tx = tx := by
  unfold logRowsOf at h
  rcases List.mem_append.mp h with h | h
  · obtain ⟨f, -, rfl⟩ := List.mem_map.mp h; rfl
  · rw [mem_dedup] at h
    obtain ⟨f, -, hf⟩ := List.mem_filterMap.mp h
    split at hf
    · split at hf <;> cases hf
      rfl
    · cases hf

theorem DataOnly.schema {db db' : Db} (h : DataOnly db db') : db'.schema = db.schema := by
  induction h with
  | refl => rfl
  | step _ ht hl ih =>
    rw [← ih]
    obtain ⟨T⟩ := transact_trace ht
    obtain ⟨-, -, hlr, -, -, hlog, -⟩ := apply_ok T.applied
    rcases T.md with ⟨hmd, -⟩ | ⟨h1, -⟩
    · rw [applyMetadata_none] at hmd
      · simp only [Res.ok.injEq, Prod.mk.injEq] at hmd
        exact hmd.1.symm
      · intro l hm
        have := hl l (by rw [T.log, hlog rfl]; exact List.mem_append_right _ hm) (logRowsOf_tx (hlr ▸ hm))
        unfold mightUpdateMetadata
        split
        · rfl
        · exact decide_eq_false this
    · exact h1

/-- C93.  A query prepared without caches, run after any number of transactions of data of other connections, is the query run once
then. -/
theorem C93_later_partial {db db' : Db} (hd : DataOnly db db') {q : FindQuery} {inputs : Inputs} {p : PreparedQuery}
    (hp : prepareQuery ⟨db.schema, none⟩ q inputs = .ok p) (fl : Floats) (texts : Text → Int) (i : Option Inputs) :
    p.run fl (db'.tables texts) i = runQuery fl ⟨db'.schema, none⟩ (db'.tables texts) q inputs := by
  rw [hd.schema]; exact C93_run hp fl _ i

namespace CachedEx
/-- A query prepared with what a connection knows, and run on the store of another state. -/
def later (k : Known) (db : Db) (q : FindQuery) (vs ws : AMap Var TypedValue) : Res QResult :=
  (prepareQuery k q (Inputs.ofValues vs)).bind fun p => p.run QueryEx.floats (db.tables fun _ => 1) (some (Inputs.ofValues ws))
/-- The entities with a value that is given. -/
def given : FindQuery := { QueryEx.find [e] [at' (.var e) "one" (.var v)] with inVars := [v] }
end CachedEx
open CachedEx

/-- A query prepared before a value is replaced and run after it. -/
theorem C93_example : ∃ db db' : Db, ReachData db' ∧ DataOnly db db' ∧
    later ⟨db.schema, none⟩ db one [] [] = .ok (.rel 1 [str "a"]) ∧
    later ⟨db.schema, none⟩ db' one [] [] = .ok (.rel 1 [str "b"]) ∧
    PlainQuery ⟨db.schema, none⟩ one (Inputs.ofValues []) := by
  have h : ((runDataFrom [setupTx, dataTx] bootDb).any fun db => match transactTerms db 0 changeTx.1 changeTx.2 with
      | .ok (db', rep) => decide (runDataFrom [setupTx, dataTx, changeTx] bootDb = some db') &&
          (db'.store.log.all fun l => !decide (l.tx = rep.txId) || !decide (l.a ∈
            [DB_IDENT, DB_CARDINALITY, DB_FULLTEXT, DB_INDEX, DB_IS_COMPONENT, DB_UNIQUE, DB_VALUE_TYPE])) &&
          decide (later ⟨db.schema, none⟩ db one [] [] = .ok (.rel 1 [str "a"])) &&
          decide (later ⟨db.schema, none⟩ db' one [] [] = .ok (.rel 1 [str "b"]))
      | _ => false) = true := by decide +kernel
  obtain ⟨db, -, h⟩ := any_some' h
  split at h
  · rename_i db' rep ht
    simp only [Bool.and_eq_true] at h
    refine ⟨db, db', reachData_of h.1.1.1, .step .refl ht fun l hl htx hm => ?_, of_decide_eq_true h.1.2, of_decide_eq_true h.2, ?_⟩
    · have := List.all_eq_true.mp h.1.1.2 l hl
      simp [htx, hm] at this
    · exact plain fun c hc => by
        simp only [List.mem_singleton] at hc
        subst hc
        exact patOk (.inl ⟨_, rfl⟩)
  · cases h

/-- The inputs given to `run` are not used: the answer is for those given when the query was prepared. -/
theorem C93_fails_inputs : ∃ db : Db, ReachData db ∧ ¬ Has db.store.rows e1 xOne (str "b") ∧
    later ⟨db.schema, none⟩ db given [(v, str "a")] [(v, str "b")] = .ok (.rel 1 [.ref e1]) ∧
    runQuery QueryEx.floats ⟨db.schema, none⟩ (db.tables fun _ => 1) given (Inputs.ofValues [(v, str "b")]) = .ok (.rel 1 []) := by
  have h : ((runDataFrom [setupTx, dataTx] bootDb).any fun db => !hasB db e1 xOne (str "b") &&
      decide (later ⟨db.schema, none⟩ db given [(v, str "a")] [(v, str "b")] = .ok (.rel 1 [.ref e1])) &&
      decide (runQuery QueryEx.floats ⟨db.schema, none⟩ (db.tables fun _ => 1) given (Inputs.ofValues [(v, str "b")]) =
        .ok (.rel 1 []))) = true := by decide +kernel
  obtain ⟨db, hr, h⟩ := any_some' h
  simp only [Bool.and_eq_true] at h
  refine ⟨db, reachData_of (decide_eq_true hr), fun hn => ?_, of_decide_eq_true h.1.2, of_decide_eq_true h.2⟩
  have := h.1.1
  rw [show hasB db e1 xOne (str "b") = true from hasB_iff.mpr hn] at this
  simp at this

/-- A transaction told not to use the caches: a query run once reads the store, the same query prepared is answered by the cache. -/
theorem C93_fails_caching : ∃ (c : Conn) (p : InProgress), Connected xOne (SingleOk xOne) c ∧ Session xOne (SingleOk xOne) c p ∧
    p.qOnce QueryEx.floats false (p.db.tables fun _ => 1) one (Inputs.ofValues []) = .ok (.rel 1 []) ∧
    ((p.qPrepare false one (Inputs.ofValues [])).bind fun s => s.run QueryEx.floats (p.db.tables fun _ => 1) none) =
      .ok (.rel 1 [str "a"]) := by
  obtain ⟨c, p, hc, hs, hp⟩ := session_of_setup (a := xOne) (Q := SingleOk xOne)
    (Qb := fun db db' shown => sameShapeB xOne db db' shown && shownKeptB xOne db db' shown)
    (by
      intro db db' shown h
      rw [Bool.and_eq_true] at h
      exact ⟨sameShapeB_iff h.1, shownKeptB_iff h.2⟩)
    [dataSession, .reg xOne .forward] [.tx ([retE e1 xOne (str "a")], [])]
    (pr := fun _ p => decide (p.qOnce QueryEx.floats false (p.db.tables fun _ => 1) one (Inputs.ofValues []) = .ok (.rel 1 [])) &&
      decide (((p.qPrepare false one (Inputs.ofValues [])).bind fun s => s.run QueryEx.floats (p.db.tables fun _ => 1) none) =
        .ok (.rel 1 [str "a"])))
    (by decide +kernel)
  simp only [Bool.and_eq_true] at hp
  exact ⟨c, p, hc, hs, of_decide_eq_true hp.1, of_decide_eq_true hp.2⟩

/-- C93: in a transaction that does use the caches they are the same. -/
theorem C93_inProgress (fl : Floats) (p : InProgress) (db : Tables) (q : FindQuery) (inputs : Inputs) (i : Option Inputs) :
    ((p.qPrepare true q inputs).bind fun s => s.run fl db i) = p.qOnce fl true db q inputs :=
  (C93_once fl p.known db q inputs i).symm

end Mentat
