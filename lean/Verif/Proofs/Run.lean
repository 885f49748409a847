import Verif.Proofs.HistoryRows
/- Concrete histories, for the examples and counterexamples beside the theorems. -/
namespace Mentat

/-- One transaction of a concrete history: its terms and the tempids occurring in them. -/
abbrev Tx := List TTerm × List TempId

instance (db : Db) (terms : List TTerm) : Decidable (KnownTerms db terms) :=
  decidable_of_iff ((terms.all fun x => match x.e with
    | .inl e => db.parts.containsEntid e || decide (e = db.parts.tx.next)
    | .inr _ => true) = true) <| by
    unfold KnownTerms
    rw [List.all_eq_true]
    constructor
    · intro h x hx e he
      have := h x hx
      rw [he] at this
      simpa only [Bool.or_eq_true, decide_eq_true_eq] using this
    · intro h x hx
      have := h x hx
      cases he : x.e with
      | inl e => simpa only [Bool.or_eq_true, decide_eq_true_eq] using this e he
      | inr t => rfl

/-- Run a concrete history from `db`, all transactions at clock `0`. -/
def runFrom : List Tx → Db → Option Db
  | [], db => some db
  | (terms, ids) :: rest, db =>
    if KnownTerms db terms then
      match transactTerms db 0 terms ids with
      | .ok (db', _) => runFrom rest db'
      | _ => none
    else none

/-- Run a concrete history from a fresh store. -/
def run (txs : List Tx) : Option Db :=
  match createCurrentVersion 0 with
  | .ok db => runFrom txs db
  | _ => none

theorem runFrom_reach {txs : List Tx} {db db' : Db} (hr : Reach db)
    (h : runFrom txs db = some db') : Reach db' := by
  induction txs generalizing db with
  | nil => simp only [runFrom, Option.some.injEq] at h; exact h ▸ hr
  | cons x rest ih =>
    obtain ⟨terms, ids⟩ := x
    unfold runFrom at h
    split at h
    · rename_i hk
      split at h
      · rename_i db1 rep ht
        exact ih (.step hr ⟨0, terms, ids, rep, hk, ht⟩) h
      · simp at h
    · simp at h

theorem run_reach {txs : List Tx} {db : Db} (h : run txs = some db) : Reach db := by
  unfold run at h
  split at h
  · rename_i db0 h0
    exact runFrom_reach (.boot h0) h
  · simp at h

/-- A reachable database with a decidable property, by evaluating a concrete history. -/
theorem reach_of_run {txs : List Tx} {p : Db → Bool} (h : (run txs).any p = true) :
    ∃ db, Reach db ∧ p db = true := by
  cases hr : run txs with
  | none => simp [hr] at h
  | some db =>
    rw [hr] at h
    exact ⟨db, run_reach hr, h⟩

instance (db db' : Db) : Decidable (KeepsUsedAttributes db db') :=
  decidable_of_iff (∀ r ∈ db.store.rows, r.a = DB_VALUE_TYPE →
      (∃ r' ∈ db'.store.rows, r'.e = r.e ∧ r'.a = DB_VALUE_TYPE ∧ r'.v = r.v) ∨
      ∀ r' ∈ db'.store.rows, r'.a ≠ r.e) <| by
    unfold KeepsUsedAttributes Has
    constructor
    · rintro h a v ⟨r, hr, rfl, ha, rfl⟩ hn
      rcases h r hr ha with h | h
      · exact absurd h hn
      · exact h
    · intro h r hr ha
      by_cases hn : ∃ r' ∈ db'.store.rows, r'.e = r.e ∧ r'.a = DB_VALUE_TYPE ∧ r'.v = r.v
      · exact Or.inl hn
      · exact Or.inr (h r.e r.v ⟨r, hr, rfl, ha, rfl⟩ hn)

/-- Like `runFrom`, also checking `KeepsUsedAttributes`. -/
def runKeptFrom : List Tx → Db → Option Db
  | [], db => some db
  | (terms, ids) :: rest, db =>
    if KnownTerms db terms then
      match transactTerms db 0 terms ids with
      | .ok (db', _) => if KeepsUsedAttributes db db' then runKeptFrom rest db' else none
      | _ => none
    else none

def runKept (txs : List Tx) : Option Db :=
  match createCurrentVersion 0 with
  | .ok db => runKeptFrom txs db
  | _ => none

theorem runKeptFrom_reach {txs : List Tx} {db db' : Db} (hr : ReachKept db)
    (h : runKeptFrom txs db = some db') : ReachKept db' := by
  induction txs generalizing db with
  | nil => simp only [runKeptFrom, Option.some.injEq] at h; exact h ▸ hr
  | cons x rest ih =>
    obtain ⟨terms, ids⟩ := x
    unfold runKeptFrom at h
    split at h
    · rename_i hk
      split at h
      · rename_i db1 rep ht
        split at h
        · rename_i hku
          exact ih (.step hr ⟨0, terms, ids, rep, hk, ht⟩ hku) h
        · simp at h
      · simp at h
    · simp at h

theorem reachKept_of_run {txs : List Tx} {p : Db → Bool} (h : (runKept txs).any p = true) :
    ∃ db, ReachKept db ∧ p db = true := by
  unfold runKept at h
  split at h
  · rename_i db0 h0
    cases hr : runKeptFrom txs db0 with
    | none => simp [hr] at h
    | some db =>
      rw [hr] at h
      exact ⟨db, runKeptFrom_reach (.boot h0) hr, h⟩
  · simp at h

/-! Abbreviations for writing terms. -/

/-- A tempid written as a string. -/
def tid (s : String) : TempId := .external s.toList
/-- `[:db/add "t" a v]` -/
def addT (t : String) (a : Entid) (v : TypedValue) : TTerm := ⟨.add, .inr (tid t), a, .inl v⟩
/-- `[:db/add e a v]` -/
def addE (e a : Entid) (v : TypedValue) : TTerm := ⟨.add, .inl e, a, .inl v⟩
/-- `[:db/retract e a v]` -/
def retE (e a : Entid) (v : TypedValue) : TTerm := ⟨.retract, .inl e, a, .inl v⟩
/-- `[:db/add "t" a "t2"]` -/
def addTT (t : String) (a : Entid) (t2 : String) : TTerm := ⟨.add, .inr (tid t), a, .inr (tid t2)⟩
/-- `[:db/add e a "t"]` -/
def addET (e a : Entid) (t : String) : TTerm := ⟨.add, .inl e, a, .inr (tid t)⟩

def str (s : String) : TypedValue := .string s.toList

/-- Install an attribute `:x/<t>`. -/
def install (t : String) (vt card : Entid) (more : List TTerm := []) : List TTerm :=
  [addT t DB_IDENT (.keyword (kw "x" t)), addT t DB_VALUE_TYPE (.ref vt),
   addT t DB_CARDINALITY (.ref card)] ++ more

def installIdentity (t : String) (vt : Entid) : List TTerm :=
  install t vt DB_CARDINALITY_ONE
    [addT t DB_UNIQUE (.ref DB_UNIQUE_IDENTITY), addT t DB_INDEX (.boolean true)]

end Mentat
