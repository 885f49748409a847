import Verif.Props.Session
/-
C69: savepoints.  Rolling back to one restores the tables as they were when it was set, whatever was done
since; what is kept in memory is not restored.
-/
namespace Mentat

/-- What is done inside a transaction in progress, as far as savepoints are concerned. -/
inductive SaveOp where
  | work
  | save (name : Text)
  | rollback (name : Text)
  | release (name : Text)

/-- One thing done. -/
inductive Does : InProgress → SaveOp → InProgress → Prop
  | transact {p p' : InProgress} {now terms ids r} (h : p.transact now terms ids = (r, p')) : Does p .work p'
  | register {p p' : InProgress} {a d} (h : p.register a d = .ok p') : Does p .work p'
  | unregister (p : InProgress) (a : Entid) : Does p .work (p.unregister a)
  | save (p : InProgress) (name : Text) : Does p (.save name) (p.savepoint name)
  | rollback {p p' : InProgress} {name} (h : p.rollbackTo name = .ok p') : Does p (.rollback name) p'
  | release {p p' : InProgress} {name} (h : p.release name = .ok p') : Does p (.release name) p'

inductive DoesAll : InProgress → List SaveOp → InProgress → Prop
  | nil (p : InProgress) : DoesAll p [] p
  | cons {p p' p'' : InProgress} {o os} (h : Does p o p') (t : DoesAll p' os p'') : DoesAll p (o :: os) p''

/-- The names from the latest occurrence of `name` on. -/
def upTo (name : Text) : List Text → Option (List Text)
  | [] => none
  | m :: r => if m = name then some (m :: r) else upTo name r

/-- The savepoints set since and still there, the latest first; nothing if an earlier one was used. -/
def inner : List Text → List SaveOp → Option (List Text)
  | ns, [] => some ns
  | ns, .work :: os => inner ns os
  | ns, .save n :: os => inner (n :: ns) os
  | ns, .rollback n :: os => (upTo n ns).bind fun ns' => inner ns' os
  | ns, .release n :: os => (upTo n ns).bind fun ns' => inner ns'.tail os

theorem InProgress.transact_saves {p p' : InProgress} {now terms ids r}
    (h : p.transact now terms ids = (r, p')) : p'.saves = p.saves := by
  unfold InProgress.transact at h
  simp only at h
  cases hd : (transactRun p.db now terms ids).done with
  | none =>
    rw [hd] at h
    simp only at h
    split at h <;> (simp only [Prod.mk.injEq] at h; obtain ⟨-, rfl⟩ := h; rfl)
  | some tx =>
    rw [hd] at h
    simp only at h
    cases hw : p.cache.watch p.schema (transactRun p.db now terms ids).shown with
    | ok c =>
      rw [hw] at h
      simp only [Res.bind] at h
      split at h <;> (simp only [Prod.mk.injEq] at h; obtain ⟨-, rfl⟩ := h; rfl)
    | err e => rw [hw] at h; simp only [Res.bind, Prod.mk.injEq] at h; obtain ⟨-, rfl⟩ := h; rfl
    | panic => rw [hw] at h; simp only [Res.bind, Prod.mk.injEq] at h; obtain ⟨-, rfl⟩ := h; rfl

theorem findSave_upTo (name : Text) (base : List (Text × Store × Views)) :
    ∀ (top : List (Text × Store × Views)) {ns}, upTo name (top.map (·.1)) = some ns →
      ∃ s r, findSave name (top ++ base) = some (s :: (r ++ base)) ∧ s.1 :: r.map (·.1) = ns
  | [], ns, h => by simp [upTo] at h
  | s :: top, ns, h => by
    simp only [List.map_cons, upTo] at h
    simp only [List.cons_append, findSave]
    by_cases hs : s.1 = name
    · rw [if_pos hs] at h ⊢
      exact ⟨s, top, rfl, by simpa using h⟩
    · rw [if_neg hs] at h ⊢
      exact findSave_upTo name base top h

theorem does_all_saves {base : List (Text × Store × Views)} {p p' : InProgress} {os} (h : DoesAll p os p') :
    ∀ {top : List (Text × Store × Views)} {ns ns'}, p.saves = top ++ base → top.map (·.1) = ns →
      inner ns os = some ns' → ∃ top', p'.saves = top' ++ base ∧ top'.map (·.1) = ns' := by
  induction h with
  | nil p =>
    intro top ns ns' h1 h2 h3
    simp only [inner, Option.some.injEq] at h3
    exact ⟨top, h1, h2.trans h3⟩
  | @cons p q p'' o os hd _ ih =>
    intro top ns ns' h1 h2 h3
    cases hd with
    | transact h => exact ih (by rw [InProgress.transact_saves h, h1]) h2 h3
    | @register _ a d h =>
      refine ih ?_ h2 h3
      unfold InProgress.register at h
      cases hr : p.cache.register p.schema p.store.rows a d with
      | ok c => rw [hr] at h; obtain rfl := Res.ok.inj h; exact h1
      | err e => rw [hr] at h; simp [Res.bind] at h
      | panic => rw [hr] at h; simp [Res.bind] at h
    | unregister a => exact ih h1 h2 h3
    | save name => exact ih (top := (name, p.store, p.views) :: top) (by simp [InProgress.savepoint, h1]) (by simp [h2]) h3
    | @rollback _ name h =>
      simp only [inner, Option.bind_eq_some_iff] at h3
      obtain ⟨ms, h3, h4⟩ := h3
      rw [← h2] at h3
      obtain ⟨s, r, h5, h6⟩ := findSave_upTo name base top h3
      unfold InProgress.rollbackTo at h
      rw [h1, h5] at h
      simp only [Res.ok.injEq] at h
      subst h
      exact ih (top := s :: r) rfl (by simpa using h6) h4
    | @release _ name h =>
      simp only [inner, Option.bind_eq_some_iff] at h3
      obtain ⟨ms, h3, h4⟩ := h3
      rw [← h2] at h3
      obtain ⟨s, r, h5, h6⟩ := findSave_upTo name base top h3
      unfold InProgress.release at h
      rw [h1, h5] at h
      simp only [Res.ok.injEq] at h
      subst h
      exact ih (top := r) rfl (by rw [← h6]; rfl) h4

theorem findSave_skip {name : Text} {base : List (Text × Store × Views)} :
    ∀ {top : List (Text × Store × Views)}, name ∉ top.map (·.1) → findSave name (top ++ base) = findSave name base
  | [], _ => rfl
  | s :: top, h => by
    simp only [List.map_cons, List.mem_cons, not_or] at h
    simp only [List.cons_append, findSave]
    rw [if_neg (fun e => h.1 e.symm)]
    exact findSave_skip h.2

/-- C69: set a savepoint, do anything (transactions that succeed, fail or panic, caching, setting further
savepoints and rolling back to those or releasing them), and roll back to it: the tables are as they were,
and the savepoint can be used again.  Partial: what is kept in memory is not put back, see `C69_fails`. -/
theorem C69_restores_partial {p q : InProgress} {name os ns} (h : DoesAll (p.savepoint name) os q)
    (hi : inner [] os = some ns) (hn : name ∉ ns) :
    ∃ q', q.rollbackTo name = .ok q' ∧ q'.store = p.store ∧ q'.views = p.views ∧
      q'.saves = (p.savepoint name).saves := by
  obtain ⟨top, h1, h2⟩ := does_all_saves (base := (p.savepoint name).saves) h (top := []) rfl rfl hi
  refine ⟨{ q with store := p.store, views := p.views, saves := (p.savepoint name).saves }, ?_, rfl, rfl, rfl⟩
  unfold InProgress.rollbackTo
  rw [h1, findSave_skip (by rw [h2]; exact hn)]
  simp [InProgress.savepoint, findSave]

/-- C69: releasing a savepoint keeps what was done since, and forgets the savepoints set since. -/
theorem C69_released {p q : InProgress} {name os ns} (h : DoesAll (p.savepoint name) os q)
    (hi : inner [] os = some ns) (hn : name ∉ ns) : q.release name = .ok { q with saves := p.saves } := by
  obtain ⟨top, h1, h2⟩ := does_all_saves (base := (p.savepoint name).saves) h (top := []) rfl rfl hi
  unfold InProgress.release
  rw [h1, findSave_skip (by rw [h2]; exact hn)]
  simp [InProgress.savepoint, findSave]

/-- C69: a name that was never set, or was released, is refused. -/
theorem C69_unknown {p : InProgress} {name : Text} (h : name ∉ p.saves.map (·.1)) :
    p.rollbackTo name = .err .other ∧ p.release name = .err .other := by
  have : findSave name p.saves = none := by
    have := findSave_skip (name := name) (base := []) h
    rw [List.append_nil] at this
    rw [this]; rfl
  simp [InProgress.rollbackTo, InProgress.release, this]

/-- A transaction, an inner savepoint with another transaction, and a release, rolled back. -/
theorem C69_example : ∃ (p : InProgress) (os : List SaveOp) (q q' : InProgress), DoesAll (p.savepoint "s".toList) os q ∧ inner [] os = some [] ∧
    q.rollbackTo "s".toList = .ok q' ∧ q'.store = p.store ∧ q.store ≠ p.store := by
  have hb : (match ((Conn.connect setupDb).begin.savepoint "s".toList).transact 0 dataTx.1 dataTx.2 with
      | (_, p1) => match (p1.savepoint "t".toList).transact 0 changeTx.1 changeTx.2 with
        | (_, p2) => match p2.release "t".toList with
          | .ok p3 => decide (p3.store ≠ setupDb.store)
          | _ => false) = true := by decide +kernel
  split at hb
  rename_i r1 p1 h1
  split at hb
  rename_i r2 p2 h2
  split at hb
  · rename_i p3 h3
    have hd := DoesAll.cons (.transact h1) (.cons (.save p1 "t".toList) (.cons (.transact h2) (.cons (.release h3) (.nil p3))))
    obtain ⟨q', g1, g2, -⟩ := C69_restores_partial (ns := []) hd rfl (by simp)
    exact ⟨_, _, p3, q', hd, rfl, g1, g2, of_decide_eq_true hb⟩
  · simp at hb

/-- C69 in full would restore everything the transaction in progress holds.  The schema, the partition map
and the report to the observers stay as they are: after the rollback, the next transaction skips the ids
of the one undone, the schema knows an attribute that is in no table, and the observers will be told of a
transaction that never was. -/
theorem C69_fails : ∃ p rep q q', p = (Conn.connect setupDb).begin ∧
    (p.savepoint "s".toList).transact 0 (install "new" DB_TYPE_LONG DB_CARDINALITY_ONE) [tid "new"] = (.ok rep, q) ∧
    q.rollbackTo "s".toList = .ok q' ∧ (∀ r ∈ q'.store.log, r.tx ≠ rep.txId) ∧ q'.parts ≠ p.parts ∧
    (q'.schema.attr 65539).isSome ∧ p.schema.attr 65539 = none ∧ (AMap.get q'.txes rep.txId).isSome := by
  have hb : (match ((Conn.connect setupDb).begin.savepoint "s".toList).transact 0
        (install "new" DB_TYPE_LONG DB_CARDINALITY_ONE) [tid "new"] with
      | (.ok rep, q) => match q.rollbackTo "s".toList with
        | .ok q' => (q'.store.log.all fun r => decide (r.tx ≠ rep.txId)) &&
            decide (q'.parts ≠ (Conn.connect setupDb).begin.parts) && (q'.schema.attr 65539).isSome &&
            decide ((Conn.connect setupDb).begin.schema.attr 65539 = none) && (AMap.get q'.txes rep.txId).isSome
        | _ => false
      | _ => false) = true := by decide +kernel
  split at hb
  · rename_i rep q h1
    split at hb
    · rename_i q' h2
      simp only [Bool.and_eq_true, List.all_eq_true, decide_eq_true_eq] at hb
      obtain ⟨⟨⟨⟨g1, g2⟩, g3⟩, g4⟩, g5⟩ := hb
      exact ⟨_, rep, q, q', rfl, h1, h2, g1, g2, g3, g4, g5⟩
    · simp at hb
  · simp at hb

end Mentat
