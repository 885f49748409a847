import Verif.Model.EntityParse
import Verif.Props.EdnParse
import Verif.Spec.QueryForms
/-
The language of transactions: which EDN forms denote which entities.  Written from the doc comments of
edn/src/entities.rs, without the grammar.
-/
namespace Mentat
namespace EParse
open Edn EdnParse QParse

/-- An entity by number, or by a keyword with namespace. -/
inductive IdForm : Edn → EntidOrIdent → Prop
  | entid {n} : Readable (.integer n) → IdForm (.integer n) (.entid n)
  | ident {k} : Readable (.keyword k) → k.isNamespaced = true → IdForm (.keyword k) (.ident k.keyword)

/-- The name of a transaction function. -/
def TxName (f : Text) : Prop := Readable (.plainSymbol f) ∧ FnName f ["lookup-ref"]

/-- The entity of an assertion: a tempid, an entity, a lookup ref or a transaction function. -/
inductive EntForm : Edn → EntityPlace Edn → Prop
  | tempId {s} : Readable (.text s) → EntForm (.text s) (.tempId (.external s))
  | entid {f e} : IdForm f e → EntForm f (.entid e)
  | lookupRef {f a v} : IdForm f a → Readable v → EntForm (.list [symE "lookup-ref", f, v]) (.lookupRef a v)
  | txFunction {n} : TxName n → EntForm (.list [.plainSymbol n]) (.txFunction n)

/-- A value that is not a collection. -/
def IsAtom (v : Edn) : Prop :=
  (∀ l, v ≠ .vector l) ∧ (∀ l, v ≠ .list l) ∧ (∀ l, v ≠ .set l) ∧ ∀ l, v ≠ .map l

/-- The entries of a map in the order of its keys, which are distinct. -/
def Ordered (m : List (EntidOrIdent × V)) : Prop := m.Pairwise fun p q => keyCmp p.1 q.1 = .lt

mutual
/-- The value of an assertion, nested to any depth.  The entries of a map may be written in any order. -/
inductive PlaceForm : Edn → ValuePlace Edn → Prop
  | atom {v} : Readable v → IsAtom v → PlaceForm v (.atom v)
  | lookupRef {f a v} : IdForm f a → Readable v → PlaceForm (.list [symE "lookup-ref", f, v]) (.lookupRef a v)
  | txFunction {n} : TxName n → PlaceForm (.list [.plainSymbol n]) (.txFunction n)
  | vector {l vs} : PlacesForm l vs → PlaceForm (.vector l) (.vector vs)
  | map {l ps m} : PairsForm l ps → m.Perm ps → Ordered m → PlaceForm (.map l) (.map m)
inductive PlacesForm : List Edn → List (ValuePlace Edn) → Prop
  | nil : PlacesForm [] []
  | cons {v p l ps} : PlaceForm v p → PlacesForm l ps → PlacesForm (v :: l) (p :: ps)
inductive PairsForm : List Edn → List (EntidOrIdent × ValuePlace Edn) → Prop
  | nil : PairsForm [] []
  | cons {k a v p l ps} : IdForm k a → PlaceForm v p → PairsForm l ps → PairsForm (k :: v :: l) ((a, p) :: ps)
end

/-- `:db/add` and `:db/retract` -/
def opForm : Op → Edn
  | .add => .keyword ⟨"db/add".toList, 2⟩
  | .retract => .keyword ⟨"db/retract".toList, 2⟩

/-- The values that can stand where the entity stands in the reversed notation. -/
def RefAtom : ValuePlace Edn → Prop
  | .atom (.text _) => True
  | .atom (.integer _) => True
  | .atom (.keyword k) => k.isNamespaced = true
  | .atom _ => False
  | _ => True

/-- `[op entity attribute value]`; `[op value :ns/_name entity]`, which is `[op entity :ns/name value]`; or a map. -/
inductive EntityForm : Edn → TxEntity Edn → Prop
  | forward {o e e' a a' v v'} : EntForm e e' → IdForm a a' → (∀ k, a = .keyword k → k.isForward = true) → PlaceForm v v' →
      EntityForm (.vector [opForm o, e, a, v]) (.addOrRetract o e' a' v')
  | backward {o e e' ns n k k' v v'} : EntForm e e' → PlaceForm v v' → RefAtom v' →
      NName.namespaced ns n = .ok k → NName.namespaced ns ('_' :: n) = .ok k' → Readable (.keyword k') →
      EntityForm (.vector [opForm o, v, .keyword k', e]) (.addOrRetract o e' (.ident k.keyword) v')
  | map {l ps m} : PairsForm l ps → m.Perm ps → Ordered m → EntityForm (.map l) (.map m)

inductive EntitiesForm : List Edn → List (TxEntity Edn) → Prop
  | nil : EntitiesForm [] []
  | cons {v e l es} : EntityForm v e → EntitiesForm l es → EntitiesForm (v :: l) (e :: es)

/-- A transaction is a vector of entities. -/
def TxForm (v : Edn) (es : List (TxEntity Edn)) : Prop := ∃ l, v = .vector l ∧ EntitiesForm l es

/-! ### What any accepted text has -/

/-- The parts of a keyword are as a stored keyword is read back (`ValidPart`). -/
def KwOk (k : Keyword) : Prop := (k.ns = [] ∨ ValidPart k.ns) ∧ ValidPart k.name

/-- Integers of 64 bits, instants that are 64 bits of microseconds, keywords with proper parts, UUIDs of 128 bits. -/
def AtomOk : Edn → Prop
  | .integer n => -(2 ^ 63) ≤ n ∧ n < 2 ^ 63
  | .instant t => 0 ≤ t.nanos ∧ t.nanos < 2000000000 ∧ -(2 ^ 63) ≤ t.secs * 1000000 ∧ t.secs * 1000000 + t.nanos / 1000 < 2 ^ 63
  | .keyword k => KwOk k.keyword
  | .uuid u => u < 2 ^ 128
  | _ => True

/-- An entity or attribute: 64 bits, or a keyword with namespace. -/
def IdWf : EntidOrIdent → Prop
  | .entid n => -(2 ^ 63) ≤ n ∧ n < 2 ^ 63
  | .ident k => ValidPart k.ns ∧ ValidPart k.name

inductive PlaceWf : ValuePlace Edn → Prop
  | atom {v} : IsAtom v → AtomOk v → PlaceWf (.atom v)
  | lookupRef {a v} : IdWf a → AtomOk v → PlaceWf (.lookupRef a v)
  | txFunction {f} : f ≠ [] → PlaceWf (.txFunction f)
  | vector {vs} : (∀ v ∈ vs, PlaceWf v) → PlaceWf (.vector vs)
  | map {m} : Ordered m → (∀ p ∈ m, IdWf p.1) → (∀ p ∈ m, PlaceWf p.2) → PlaceWf (.map m)

def EntWf : EntityPlace Edn → Prop
  | .entid e => IdWf e
  | .tempId t => ∃ s, t = .external s
  | .lookupRef a v => IdWf a ∧ AtomOk v
  | .txFunction f => f ≠ []

def EntityWf : TxEntity Edn → Prop
  | .addOrRetract _ e a v => EntWf e ∧ IdWf a ∧ PlaceWf v
  | .map m => Ordered m ∧ ∀ p ∈ m, IdWf p.1 ∧ PlaceWf p.2

end EParse
end Mentat
