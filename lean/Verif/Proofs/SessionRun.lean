import Verif.Proofs.Examples
import Verif.Spec.Session
/- Concrete sessions, for the examples and counterexamples beside the theorems. -/
namespace Mentat

/-- A step of a concrete session. -/
inductive SOp where
  | tx (t : Tx)
  | reg (b : Entid) (d : CacheDir)
  | unreg (b : Entid)

/-- Run a concrete session, all transactions at clock `0`, checking the conditions of `Session`. -/
def runSession (a : Entid) (Qb : Db → Db → List Shown → Bool) (c : Conn) :
    List SOp → InProgress → Option InProgress
  | [], p => some p
  | .tx (terms, ids) :: rest, p =>
    match p.transact 0 terms ids with
    | (.ok _, p') =>
      if decide (KnownTerms p.db terms) && decide (KeepsUsedAttributes p.db p'.db) &&
        (!(p.cache.cachedForward a || p.cache.cachedReverse a) ||
          Qb p.db p'.db (transactRun p.db 0 terms ids).shown)
      then runSession a Qb c rest p' else none
    | _ => none
  | .reg b d :: rest, p =>
    match p.register b d with
    | .ok p' =>
      if decide (b ≠ a) || decide (p' = p) || (decide (a ∉ c.cache.forward) && decide (a ∉ c.cache.reverse))
      then runSession a Qb c rest p' else none
    | _ => none
  | .unreg b :: rest, p => runSession a Qb c rest (p.unregister b)

theorem runSession_session {a : Entid} {Qb} {Q : TxCond}
    (hQ : ∀ db db' shown, Qb db db' shown = true → Q db db' shown) {c : Conn} {ops : List SOp}
    {p p' : InProgress} (hs : Session a Q c p) (h : runSession a Qb c ops p = some p') :
    Session a Q c p' := by
  induction ops generalizing p with
  | nil => rw [runSession] at h; cases h; exact hs
  | cons op rest ih =>
    cases op with
    | tx t =>
      obtain ⟨terms, ids⟩ := t
      rw [runSession] at h
      split at h
      · rename_i rep p1 ht
        split at h
        · rename_i hc
          simp only [Bool.and_eq_true, decide_eq_true_eq, Bool.or_eq_true, Bool.not_eq_true'] at hc
          refine ih (.transact hs hc.1.1 ht hc.1.2 ?_) h
          intro hcc
          rcases hc.2 with hn | hq
          · rw [Bool.or_eq_false_iff] at hn
            rcases hcc with hx | hx
            · rw [hn.1] at hx; simp at hx
            · rw [hn.2] at hx; simp at hx
          · exact hQ _ _ _ hq
        · simp at h
      · simp at h
    | reg b d =>
      rw [runSession] at h
      split at h
      · rename_i p1 hr
        split at h
        · rename_i hc
          simp only [Bool.or_eq_true, Bool.and_eq_true, decide_eq_true_eq] at hc
          refine ih (.register hs hr ?_) h
          intro hba
          rcases hc with (hc | hc) | hc
          · exact absurd hba hc
          · exact Or.inl hc
          · exact Or.inr hc
        · simp at h
      · simp at h
    | unreg b =>
      rw [runSession] at h
      exact ih (.unregister b hs) h

/-- A step of a concrete connection. -/
inductive COp where
  | session (ops : List SOp)
  | reg (b : Entid) (d : CacheDir)
  | unreg (b : Entid)
  | share (x : Bool)

def runConn (a : Entid) (Qb : Db → Db → List Shown → Bool) : List COp → Conn → Option Conn
  | [], c => some c
  | .session ops :: rest, c =>
    match runSession a Qb c ops c.begin with
    | some p =>
      match c.commit p with
      | (.ok _, c') => runConn a Qb rest c'
      | _ => none
    | none => none
  | .reg b d :: rest, c =>
    match c.register b d with
    | .ok c' => runConn a Qb rest c'
    | _ => none
  | .unreg b :: rest, c => runConn a Qb rest (c.unregister b)
  | .share x :: rest, c => runConn a Qb rest { c with shared := x }

theorem runConn_connected {a : Entid} {Qb} {Q : TxCond}
    (hQ : ∀ db db' shown, Qb db db' shown = true → Q db db' shown) {ops : List COp} {c c' : Conn}
    (hc : Connected a Q c) (h : runConn a Qb ops c = some c') : Connected a Q c' := by
  induction ops generalizing c with
  | nil => rw [runConn] at h; cases h; exact hc
  | cons op rest ih =>
    cases op with
    | session ops =>
      rw [runConn] at h
      split at h
      · rename_i p hp
        split at h
        · rename_i txes c1 hcm
          exact ih (.commit hc (runSession_session hQ .begin hp) hcm) h
        · simp at h
      · simp at h
    | reg b d =>
      rw [runConn] at h
      split at h
      · rename_i c1 hr
        exact ih (.register hc hr) h
      · simp at h
    | unreg b => rw [runConn] at h; exact ih (.unregister b hc) h
    | share x => rw [runConn] at h; exact ih (.share x hc) h

/-- A connection with a decidable property, by evaluating a concrete history from `setupDb`. -/
theorem connected_of_setup {a : Entid} {Qb} {Q : TxCond}
    (hQ : ∀ db db' shown, Qb db db' shown = true → Q db db' shown) (ops : List COp) {pr : Conn → Bool}
    (h : (runConn a Qb ops (Conn.connect setupDb)).any pr = true) :
    ∃ c, Connected a Q c ∧ pr c = true := by
  cases hr : runConn a Qb ops (Conn.connect setupDb) with
  | none => simp [hr] at h
  | some c =>
    rw [hr] at h
    exact ⟨c, runConn_connected hQ (.connect reachKept_setup) hr, h⟩

/-- The same with a session on top. -/
theorem session_of_setup {a : Entid} {Qb} {Q : TxCond}
    (hQ : ∀ db db' shown, Qb db db' shown = true → Q db db' shown) (ops : List COp) (sops : List SOp)
    {pr : Conn → InProgress → Bool}
    (h : (runConn a Qb ops (Conn.connect setupDb)).any (fun c =>
      (runSession a Qb c sops c.begin).any (pr c)) = true) :
    ∃ c p, Connected a Q c ∧ Session a Q c p ∧ pr c p = true := by
  obtain ⟨c, hc, h⟩ := connected_of_setup hQ ops h
  cases hr : runSession a Qb c sops c.begin with
  | none => simp [hr] at h
  | some p =>
    rw [hr] at h
    exact ⟨c, p, hc, runSession_session hQ .begin hr, h⟩

/-! ### Deciding the conditions -/

def sameShapeB (a : Entid) : Db → Db → List Shown → Bool := fun db db' _ =>
  decide (((db.schema.attr a).map fun x => (x.multival, x.unique.isSome)) =
    ((db'.schema.attr a).map fun x => (x.multival, x.unique.isSome)))

def shownKeptB (a : Entid) : Db → Db → List Shown → Bool := fun _ db' shown =>
  shown.all fun d => !(d.added && decide (d.a = a)) || hasB db' d.e d.a d.v

def noSilentB (a : Entid) : Db → Db → List Shown → Bool := fun db db' shown =>
  db.store.rows.all fun r => decide (r.a ≠ a) || hasB db' r.e r.a r.v ||
    decide ((⟨false, r.e, r.a, r.v⟩ : Shown) ∈ shown)

def retractsHeldB (a : Entid) : Db → Db → List Shown → Bool := fun db _ shown =>
  shown.all fun d => d.added || decide (d.a ≠ a) || hasB db d.e d.a d.v

theorem sameShapeB_iff {a db db' shown} (h : sameShapeB a db db' shown = true) :
    SameShape a db db' shown := by
  simpa [sameShapeB, SameShape] using h

theorem shownKeptB_iff {a db db' shown} (h : shownKeptB a db db' shown = true) :
    ShownKept a db db' shown := by
  intro e v hm
  have := (List.all_eq_true.mp h) _ hm
  simp only [Bool.true_and, decide_true, Bool.not_true, Bool.false_or] at this
  exact hasB_iff.mp this

theorem noSilentB_iff {a db db' shown} (h : noSilentB a db db' shown = true) :
    NoSilentRemoval a db db' shown := by
  rintro e v ⟨r, hr, rfl, rfl, rfl⟩ hn
  have := (List.all_eq_true.mp h) r hr
  simp only [ne_eq, not_true_eq_false, decide_false, Bool.false_or, Bool.or_eq_true,
    decide_eq_true_eq] at this
  rcases this with h1 | h1
  · exact absurd (hasB_iff.mp h1) hn
  · exact h1

theorem retractsHeldB_iff {a db db' shown} (h : retractsHeldB a db db' shown = true) :
    RetractsHeld a db db' shown := by
  intro e v hm
  have := (List.all_eq_true.mp h) _ hm
  simp only [Bool.false_or, ne_eq, not_true_eq_false, decide_false] at this
  exact hasB_iff.mp this

end Mentat
