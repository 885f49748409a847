import Verif.Model.Store
/-
The a -> e -> {add, retract} trie of final terms and the checks on it
(db/src/internal_types.rs:211-220, db/src/tx.rs:1081-1157, db/src/tx_checking.rs).
-/
namespace Mentat

/-- db/src/internal_types.rs:123 `Term::AddOrRetract`. -/
structure Term (E V : Type) where
  op : Op
  e : E
  a : Entid
  v : V
  deriving DecidableEq, Repr

/-- `TermWithoutTempIds`. -/
abbrev RTerm := Term Entid TypedValue

/-- internal_types.rs:212-215 `AddAndRetract`; `BTreeSet`s as duplicate-free lists. -/
structure AddAndRetract where
  add : List TypedValue := []
  retract : List TypedValue := []
  deriving DecidableEq, Repr

/-- internal_types.rs:219 `AEVTrie`, keyed by (a, e).  The `&Attribute` in the code's key is a
function of `a` (looked up in the same schema). -/
abbrev Trie := AMap (Entid × Entid) AddAndRetract

/-- `BTreeSet::insert`. -/
def setInsert {α : Type} [DecidableEq α] (s : List α) (x : α) : List α :=
  if x ∈ s then s else s ++ [x]

/-- `trie.entry(..).or_insert_with(default)`. -/
def Trie.entry (t : Trie) (a e : Entid) : AddAndRetract :=
  match AMap.get t (a, e) with
  | some ar => ar
  | none => {}

/-- tx.rs:1091-1103 body of `extend_aev_trie`. -/
def Trie.push (t : Trie) (x : RTerm) : Trie :=
  let ar := Trie.entry t x.a x.e
  AMap.insert t (x.a, x.e)
    (match x.op with
     | .add => { ar with add := setInsert ar.add x.v }
     | .retract => { ar with retract := setInsert ar.retract x.v })

/-- tx.rs:1081-1105 `extend_aev_trie`. -/
def extendTrie (s : Schema) : List RTerm → Trie → Res Trie
  | [], t => .ok t
  | x :: xs, t =>
    match s.attr x.a with
    | none => .err .unrecognizedEntid
    | some _ => extendTrie s xs (Trie.push t x)

/-- tx_checking.rs:27-41 `type_disagreements`: the offending [e a v]. -/
def typeDisagreements (s : Schema) (t : Trie) : List (Entid × Entid × TypedValue) :=
  t.flatMap fun ((a, e), ar) =>
    (ar.add ++ ar.retract).filterMap fun v =>
      match s.attr a with
      | some at_ => if at_.valueType ≠ v.valueType then some (e, a, v) else none
      | none => none

/-- db-traits/errors.rs `CardinalityConflict`. -/
inductive CardConflict where
  | addConflict (e a : Entid) (vs : List TypedValue)
  | addRetractConflict (e a : Entid) (vs : List TypedValue)
  deriving DecidableEq, Repr

/-- tx_checking.rs:55-75 `cardinality_conflicts`. -/
def cardinalityConflicts (s : Schema) (t : Trie) : List CardConflict :=
  t.flatMap fun ((a, e), ar) =>
    (match s.attr a with
     | some at_ => if !at_.multival && decide (1 < ar.add.length) then [.addConflict e a ar.add] else []
     | none => []) ++
    (let vs := ar.retract.filter fun v => decide (v ∈ ar.add)
     if vs.isEmpty then [] else [.addRetractConflict e a vs])

/-- db/src/entids.rs:21 `DB_TX_INSTANT`. -/
def DB_TX_INSTANT : Entid := 3

/-- tx.rs:1127-1157 `get_or_insert_tx_instant`; `now` is the clock reading used when the
transaction does not assert its own instant. -/
def getOrInsertTxInstant (s : Schema) (t : Trie) (tx : Entid) (now : Int) : Res (Int × Trie) :=
  match s.attr DB_TX_INSTANT with
  | none => .err .unrecognizedEntid
  | some _ =>
    let ar := Trie.entry t DB_TX_INSTANT tx
    match ar.add with
    | [] => .ok (now, AMap.insert t (DB_TX_INSTANT, tx) { ar with add := [.instant now] })
    | [.instant i] => .ok (i, t)
    | _ => .panic

/-- tx.rs:875-895: the trie flattened into the insertion queues. -/
def reducedOf (s : Schema) (t : Trie) : List Reduced :=
  t.flatMap fun ((a, e), ar) =>
    match s.attr a with
    | some at_ =>
      (ar.add.map fun v => ({ e := e, a := a, attr := at_, v := v, added := true } : Reduced)) ++
      (ar.retract.map fun v => { e := e, a := a, attr := at_, v := v, added := false })
    | none => []

end Mentat
