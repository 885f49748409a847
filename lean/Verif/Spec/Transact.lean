import Verif.Model.Reopen
/-
Vocabulary in which the properties of transactions are stated.  Nothing here is used by the model.
-/
namespace Mentat

/-- The datom (e, a, v) is in the table. -/
def Has (rows : List Row) (e a : Entid) (v : TypedValue) : Prop :=
  ∃ r ∈ rows, r.e = e ∧ r.a = a ∧ r.v = v

/-! ### Tempids -/

/-- `e` stands for `n` under `m`. -/
def DenotesE (m : TempIdMap) : Sum Entid TempId → Entid → Prop
  | .inl e, n => n = e
  | .inr t, n => AMap.get m t = some n

/-- `v` stands for `w` under `m`. -/
def DenotesV (m : TempIdMap) : Sum TypedValue TempId → TypedValue → Prop
  | .inl v, w => w = v
  | .inr t, w => ∃ n, AMap.get m t = some n ∧ w = .ref n

/-- The assertion `y` is the term `x` with every tempid replaced by its entity. -/
def Denotes (m : TempIdMap) (x : TTerm) (y : RTerm) : Prop :=
  y.op = x.op ∧ y.a = x.a ∧ DenotesE m x.e y.e ∧ DenotesV m x.v y.v

/-- The attribute is `:db.unique/identity`. -/
def IsIdentity (s : Schema) (a : Entid) : Prop :=
  ∃ at_, s.attr a = some at_ ∧ at_.unique = some .identity

/-- The tempid `t` asserts an identity that the existing entity `n` has, possibly through
another tempid that does. -/
inductive Upserts (s : Schema) (rows : List Row) (terms : List TTerm) : TempId → Entid → Prop
  | direct {t a v n} : (⟨.add, .inr t, a, .inl v⟩ : TTerm) ∈ terms → IsIdentity s a →
      Has rows n a v → Upserts s rows terms t n
  | via {t a t2 n2 n} : (⟨.add, .inr t, a, .inr t2⟩ : TTerm) ∈ terms → IsIdentity s a →
      Upserts s rows terms t2 n2 → Has rows n a (.ref n2) → Upserts s rows terms t n

/-- `v` with the tempids known to `U` replaced by their entity. -/
def valueUnder (U : TempIdMap) : Sum TypedValue TempId → Sum TypedValue TempId
  | .inl v => .inl v
  | .inr t => match AMap.get U t with
    | some n => .inl (.ref n)
    | none => .inr t

/-- `t` and `t'` both assert some identity `[a v]` (same attribute, same value). -/
def SharesIdentity (s : Schema) (terms : List TTerm) (U : TempIdMap) (t t' : TempId) : Prop :=
  ∃ a v v', IsIdentity s a ∧ (⟨.add, .inr t, a, v⟩ : TTerm) ∈ terms ∧
    (⟨.add, .inr t', a, v'⟩ : TTerm) ∈ terms ∧ valueUnder U v = valueUnder U v' ∧
    AMap.get U t = none ∧ AMap.get U t' = none

/-- The equivalence generated by `R`. -/
inductive Linked {α : Type} (R : α → α → Prop) : α → α → Prop
  | step {x y} : R x y → Linked R x y
  | refl (x) : Linked R x x
  | symm {x y} : Linked R x y → Linked R y x
  | trans {x y z} : Linked R x y → Linked R y z → Linked R x z

/-! ### Histories -/

/-- Entids written literally in `terms` have been allocated, or are the transaction being made. -/
def KnownTerms (db : Db) (terms : List TTerm) : Prop :=
  ∀ x ∈ terms, ∀ e, x.e = .inl e → db.parts.containsEntid e = true ∨ e = db.parts.tx.next

/-- `db'` is the result of one successful transaction on `db`. -/
def Transacts (db db' : Db) : Prop :=
  ∃ now terms ids rep, KnownTerms db terms ∧ transactTerms db now terms ids = .ok (db', rep)

/-- `q` has at least the entids of `p`: fast-forwarding from a remote widens the user partition
(tolstoy/src/syncer.rs:353). -/
def Widens (p q : Parts) : Prop :=
  q.db = p.db ∧ q.tx = p.tx ∧ q.user.start = p.user.start ∧ q.user.fin = p.user.fin ∧
    p.user.next ≤ q.user.next ∧ q.user.next ≤ q.user.fin

/-- Databases reachable from a fresh store by any number of transactions, closing and reopening
the store and widening its user partition at any point. -/
inductive Reach : Db → Prop
  | boot {now db} : createCurrentVersion now = .ok db → Reach db
  | step {db db'} : Reach db → Transacts db db' → Reach db'
  | reopen {db db'} : Reach db → Mentat.reopen db = .ok db' → Reach db'
  | widen {db p} : Reach db → Widens db.parts p → Reach { db with parts := p }

/-- An attribute whose `:db/valueType` goes away has no datoms afterwards. -/
def KeepsUsedAttributes (db db' : Db) : Prop :=
  ∀ a v, Has db.store.rows a DB_VALUE_TYPE v → ¬ Has db'.store.rows a DB_VALUE_TYPE v →
    ∀ r ∈ db'.store.rows, r.a ≠ a

/-- Reachable without ever undefining an attribute that is still in use. -/
inductive ReachKept : Db → Prop
  | boot {now db} : createCurrentVersion now = .ok db → ReachKept db
  | step {db db'} : ReachKept db → Transacts db db' → KeepsUsedAttributes db db' → ReachKept db'

end Mentat
