import Verif.Model.Session
import Verif.Spec.Transact
/-
Vocabulary for properties of connections and transactions in progress.
-/
namespace Mentat

/-- A condition on one transaction: state before, state after, what the watchers were shown. -/
abbrev TxCond := Db → Db → List Shown → Prop

/-- Any transactions. -/
abbrev AnyTx : TxCond := fun _ _ _ => True

/-- The attribute keeps its cardinality and whether it is unique. -/
def SameShape (a : Entid) : TxCond := fun db db' _ =>
  ((db.schema.attr a).map fun x => (x.multival, x.unique.isSome)) =
    ((db'.schema.attr a).map fun x => (x.multival, x.unique.isSome))

/-- Every assertion shown for `a` holds afterwards. -/
def ShownKept (a : Entid) : TxCond := fun _ db' shown =>
  ∀ e v, (⟨true, e, a, v⟩ : Shown) ∈ shown → Has db'.store.rows e a v

/-- A datom of `a` goes away only by an explicit retraction. -/
def NoSilentRemoval (a : Entid) : TxCond := fun db db' shown =>
  ∀ e v, Has db.store.rows e a v → ¬ Has db'.store.rows e a v → (⟨false, e, a, v⟩ : Shown) ∈ shown

/-- Only datoms that are present are retracted. -/
def RetractsHeld (a : Entid) : TxCond := fun db _ shown =>
  ∀ e v, (⟨false, e, a, v⟩ : Shown) ∈ shown → Has db.store.rows e a v

/-- A transaction in progress on `c`, in which, while `a` is cached, every transact satisfies `Q`, and
in which `a` is registered only if it was not cached at the start.
Failed attempts that left nothing behind may occur. -/
inductive Session (a : Entid) (Q : TxCond) (c : Conn) : InProgress → Prop
  | begin : Session a Q c c.begin
  | transact {p p' now terms ids rep} : Session a Q c p → KnownTerms p.db terms →
      p.transact now terms ids = (.ok rep, p') → KeepsUsedAttributes p.db p'.db →
      (p.cache.cachedForward a = true ∨ p.cache.cachedReverse a = true →
        Q p.db p'.db (transactRun p.db now terms ids).shown) →
      Session a Q c p'
  | failed {p p' now terms ids e} : Session a Q c p → p.transact now terms ids = (.err e, p') →
      p'.store = p.store → p'.views = p.views → p'.cache = p.cache → p'.txes = p.txes →
      Session a Q c p'
  | savepoint {p} (name) : Session a Q c p → Session a Q c (p.savepoint name)
  | release {p p'} (name) : Session a Q c p → p.release name = .ok p' → Session a Q c p'
  | register {p p' b d} : Session a Q c p → p.register b d = .ok p' →
      (b = a → p' = p ∨ (a ∉ c.cache.forward ∧ a ∉ c.cache.reverse)) → Session a Q c p'
  | unregister {p} (b) : Session a Q c p → Session a Q c (p.unregister b)

/-- Connections on a store, after any number of committed transactions as in `Session`, and any
registering and unregistering of cached attributes in between. -/
inductive Connected (a : Entid) (Q : TxCond) : Conn → Prop
  | connect {db} : ReachKept db → Connected a Q (Conn.connect db)
  | commit {c p txes c'} : Connected a Q c → Session a Q c p → c.commit p = (.ok txes, c') →
      Connected a Q c'
  | register {c c' b d} : Connected a Q c → c.register b d = .ok c' → Connected a Q c'
  | unregister {c} (b) : Connected a Q c → Connected a Q (c.unregister b)
  | share {c} (x) : Connected a Q c → Connected a Q { c with shared := x }

/-- One call on a transaction in progress that returns, with or without an error. -/
inductive Step1 : InProgress → InProgress → Prop
  | transact {p p' now terms ids rep} : p.transact now terms ids = (.ok rep, p') → Step1 p p'
  | failed {p p' now terms ids e} : p.transact now terms ids = (.err e, p') → Step1 p p'
  | savepoint (p name) : Step1 p (p.savepoint name)
  | rollbackTo {p p' name} : p.rollbackTo name = .ok p' → Step1 p p'
  | release {p p' name} : p.release name = .ok p' → Step1 p p'
  | register {p p' a d} : p.register a d = .ok p' → Step1 p p'
  | unregister (p a) : Step1 p (p.unregister a)

/-- What happens to one connection, by any number of threads: transactions begin, make progress,
commit, are refused, or are dropped (rolled back), in any order; readers ask for the schema. -/
inductive Event where
  | began (i : Nat)
  | worked (i : Nat)
  | committed (i : Nat) (schema : Schema)
  | refused (i : Nat)
  | dropped (i : Nat)
  | read (schema : Schema)

def Event.isCommit : Event → Bool
  | .committed _ _ => true
  | _ => false

/-- The histories of a connection (newest event first), with the connection and the transactions in
progress they lead to.  The type system in fact allows one transaction in progress at a time
(`begin_transaction` borrows the `Conn` mutably); nothing here depends on that. -/
inductive History1 (c0 : Conn) : List Event → Conn → (Nat → Option InProgress) → Prop
  | start : History1 c0 [] c0 fun _ => none
  | began {t c o} (i) : History1 c0 t c o → o i = none →
      History1 c0 (.began i :: t) c fun j => if j = i then some c.begin else o j
  | worked {t c o i p p'} : History1 c0 t c o → o i = some p → Step1 p p' →
      History1 c0 (.worked i :: t) c fun j => if j = i then some p' else o j
  | committed {t c o i p txes c'} : History1 c0 t c o → o i = some p → c.commit p = (.ok txes, c') →
      History1 c0 (.committed i p.schema :: t) c' fun j => if j = i then none else o j
  | refused {t c o i p e c'} : History1 c0 t c o → o i = some p → c.commit p = (.err e, c') →
      History1 c0 (.refused i :: t) c' fun j => if j = i then none else o j
  | dropped {t c o i p} : History1 c0 t c o → o i = some p →
      History1 c0 (.dropped i :: t) c fun j => if j = i then none else o j
  | read {t c o} : History1 c0 t c o → History1 c0 (.read c.schema :: t) c o

end Mentat
