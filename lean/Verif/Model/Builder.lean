import Verif.Model.Entities
import Verif.Model.Session
/-
Building transactions from typed values: transaction/src/entity_builder.rs.
-/
namespace Mentat

/-- entity_builder.rs:69-73 `TermBuilder`.  The interned tempids are a list without repetition. -/
structure TermBuilder where
  tempids : List TempId := []
  terms : List (TxEntity TypedValue) := []

/-- entity_builder.rs:106-111 `named_tempid` -/
def TermBuilder.namedTempid (b : TermBuilder) (name : Text) : TempId × TermBuilder :=
  (.external name, { b with tempids := internIn b.tempids (.external name) })

/-- entity_builder.rs:181-183 `numbered_tempid` (numbered tempids of the model are natural numbers) -/
def TermBuilder.numberedTempid (b : TermBuilder) (n : Nat) : TempId × TermBuilder :=
  (.internal n, { b with tempids := internIn b.tempids (.internal n) })

/-- entity_builder.rs:128-142 `add` -/
def TermBuilder.add (b : TermBuilder) (e : EntityPlace TypedValue) (a : EntidOrIdent) (v : ValuePlace TypedValue) : TermBuilder :=
  { b with terms := b.terms ++ [.addOrRetract .add e a v] }

/-- entity_builder.rs:142-155 `retract` -/
def TermBuilder.retract (b : TermBuilder) (e : EntityPlace TypedValue) (a : EntidOrIdent) (v : ValuePlace TypedValue) : TermBuilder :=
  { b with terms := b.terms ++ [.addOrRetract .retract e a v] }

/-- entity_builder.rs:75-78 `EntityBuilder` over a `TermBuilder` -/
structure EntityBuilder where
  builder : TermBuilder
  entity : EntityPlace TypedValue

/-- entity_builder.rs:118-126 `describe` -/
def TermBuilder.describe (b : TermBuilder) (e : EntityPlace TypedValue) : EntityBuilder := ⟨b, e⟩

/-- entity_builder.rs:113-116 `describe_tempid` -/
def TermBuilder.describeTempid (b : TermBuilder) (name : Text) : EntityBuilder :=
  let p := b.namedTempid name
  p.2.describe (.tempId p.1)

/-- entity_builder.rs:211-217 `EntityBuilder::add` -/
def EntityBuilder.add (b : EntityBuilder) (a : EntidOrIdent) (v : ValuePlace TypedValue) : EntityBuilder :=
  { b with builder := b.builder.add b.entity a v }

/-- entity_builder.rs:219-225 `EntityBuilder::retract` -/
def EntityBuilder.retract (b : EntityBuilder) (a : EntidOrIdent) (v : ValuePlace TypedValue) : EntityBuilder :=
  { b with builder := b.builder.retract b.entity a v }

/-- A use of the builders: calls on the builder itself, and entities described one after the other,
each with its attributes and values. -/
inductive BuildCall where
  | tempid (name : Text)
  | numbered (n : Nat)
  | add (e : EntityPlace TypedValue) (a : EntidOrIdent) (v : ValuePlace TypedValue)
  | retract (e : EntityPlace TypedValue) (a : EntidOrIdent) (v : ValuePlace TypedValue)
  | describe (e : EntityPlace TypedValue) (l : List (Op × EntidOrIdent × ValuePlace TypedValue))
  | describeTempid (name : Text) (l : List (Op × EntidOrIdent × ValuePlace TypedValue))

/-- The calls on an entity described. -/
def EntityBuilder.calls (b : EntityBuilder) : List (Op × EntidOrIdent × ValuePlace TypedValue) → EntityBuilder
  | [] => b
  | (.add, a, v) :: r => (b.add a v).calls r
  | (.retract, a, v) :: r => (b.retract a v).calls r

/-- One call; an `EntityBuilder` is finished (entity_builder.rs:211-213) to get the builder back. -/
def TermBuilder.call (b : TermBuilder) : BuildCall → TermBuilder
  | .tempid n => (b.namedTempid n).2
  | .numbered n => (b.numberedTempid n).2
  | .add e a v => b.add e a v
  | .retract e a v => b.retract e a v
  | .describe e l => ((b.describe e).calls l).builder
  | .describeTempid n l => ((b.describeTempid n).calls l).builder

/-- The builder after the calls, starting from entity_builder.rs:169-174 `new`. -/
def TermBuilder.calls (l : List BuildCall) : TermBuilder := l.foldl TermBuilder.call {}

/-- transaction/src/lib.rs:188-217 `transact_entities` of an `InProgress`.  Entities that do not become
terms (tx.rs:1020-1036) are an error before anything is written. -/
def InProgress.transactEntities {V : Type} [TransactableValue V] (p : InProgress) (now : Int) (es : List (TxEntity V)) :
    Res Report × InProgress :=
  match (p.parts.tx.allocate 1).bind fun (tx, txPart) =>
    (TxEnv.stage1 ⟨p.schema, { p.parts with tx := txPart }, tx⟩ es).bind fun s =>
    (resolveLookupRefs p.store s.terms).bind fun terms => .ok (terms, s.tempIds) with
  | .ok (terms, ids) => p.transact now terms ids
  | .err e => (.err e, p)
  | .panic => (.panic, p)

/-- entity_builder.rs:244-254 `InProgressBuilder::transact`: the terms, not the tempids, are transacted;
the `InProgress` is given back whatever the outcome. -/
def TermBuilder.transact (b : TermBuilder) (p : InProgress) (now : Int) : Res Report × InProgress :=
  p.transactEntities now b.terms

/-- entity_builder.rs:256-266 `InProgressBuilder::commit` (transaction/src/lib.rs:155-162 `transact_builder`):
on an error the `InProgress` is dropped, which rolls back. -/
def TermBuilder.commit (b : TermBuilder) (c : Conn) (p : InProgress) (now : Int) : Res Report × Conn :=
  match p.transactEntities now b.terms with
  | (.ok rep, p') =>
    match c.commit p' with
    | (.ok _, c') => (.ok rep, c')
    | (.err e, c') => (.err e, c')
    | (.panic, c') => (.panic, c')
  | (.err e, _) => (.err e, c)
  | (.panic, _) => (.panic, c)

end Mentat
