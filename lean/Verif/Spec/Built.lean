import Verif.Model.Entities
/-
How a transaction built from typed values is written in EDN, and when its values have the types of
the attributes they are asserted for.
-/
namespace Mentat

/-- A typed value in EDN: a reference is written as its number. -/
def TypedValue.edn : TypedValue → Edn
  | .ref e => .integer e
  | .boolean b => .boolean b
  | .long n => .integer n
  | .double d => .float (.finite d)
  | .instant us => .instant ⟨us / 1000000, us % 1000000 * 1000⟩
  | .string s => .text s
  | .keyword k => .keyword k.nname
  | .uuid u => .uuid u

/-- An entity given by number or name. -/
def EntidOrIdent.edn : EntidOrIdent → Edn
  | .entid n => .integer n
  | .ident k => .keyword k.nname

def EntityPlace.written : EntityPlace TypedValue → EntityPlace Edn
  | .entid e => .entid e
  | .tempId t => .tempId t
  | .lookupRef a v => .lookupRef a v.edn
  | .txFunction f => .txFunction f

mutual
/-- Text does not tell entities and tempids from integers, keywords and strings: a value place that is
an entity or a tempid is written as an atom.  (Numbered tempids have no text.) -/
def ValuePlace.written : ValuePlace TypedValue → ValuePlace Edn
  | .entid e => .atom e.edn
  | .tempId (.external s) => .atom (.text s)
  | .tempId (.internal n) => .tempId (.internal n)
  | .lookupRef a v => .lookupRef a v.edn
  | .txFunction f => .txFunction f
  | .vector vs => .vector (writtenList vs)
  | .atom v => .atom v.edn
  | .map m => .map (writtenMap m)
def ValuePlace.writtenList : List (ValuePlace TypedValue) → List (ValuePlace Edn)
  | [] => []
  | v :: r => v.written :: writtenList r
def ValuePlace.writtenMap : List (EntidOrIdent × ValuePlace TypedValue) → List (EntidOrIdent × ValuePlace Edn)
  | [] => []
  | p :: r => writtenPair p :: writtenMap r
def ValuePlace.writtenPair : EntidOrIdent × ValuePlace TypedValue → EntidOrIdent × ValuePlace Edn
  | (a, v) => (a, v.written)
end

def TxEntity.written : TxEntity TypedValue → TxEntity Edn
  | .addOrRetract op e a v => .addOrRetract op e.written a v.written
  | .map m => .map (ValuePlace.writtenMap m)

/-! ### Types -/

/-- The type of the attribute with this number or name. -/
def Schema.typeAt (s : Schema) : EntidOrIdent → Option ValueType
  | .entid a => (s.attr a).map (·.valueType)
  | .ident k => (AMap.get s.identMap k).bind fun a => (s.attr a).map (·.valueType)

/-- The attribute that a reversed attribute reverses; any other attribute is itself. -/
def EntidOrIdent.ahead : EntidOrIdent → EntidOrIdent
  | .ident ⟨ns, '_' :: c :: r⟩ => .ident ⟨ns, c :: r⟩
  | a => a

/-- The value of a lookup ref is of the attribute's type. -/
def RefFits (s : Schema) (a : EntidOrIdent) (v : TypedValue) : Prop := ∀ t, s.typeAt a = some t → v.valueType = t

def EntFits (s : Schema) : EntityPlace TypedValue → Prop
  | .lookupRef a v => RefFits s a v
  | _ => True

/-- What stands for the entity of a map is an entity, a tempid or a lookup ref (and no number that is not
declared a reference); its name has a namespace. -/
def IdFits (s : Schema) : ValuePlace TypedValue → Prop
  | .entid (.ident k) => k.ns ≠ []
  | .lookupRef a v => RefFits s a v
  | .atom (.keyword k) => k.ns ≠ []
  | .atom (.long _) => False
  | _ => True

/-- A value is of type `t`: an atom of the type (or a string for a tempid, as a reference), an entity or
a tempid as a reference; the values of a map are of the types of their attributes. -/
inductive PlaceFits (s : Schema) : ValueType → ValuePlace TypedValue → Prop
  | atom {t v} : v.valueType = t → PlaceFits s t (.atom v)
  | name {n} : PlaceFits s .ref (.atom (.string n))
  | entid {e} : PlaceFits s .ref (.entid e)
  | tempId {i} : PlaceFits s .ref (.tempId i)
  | lookupRef {t a v} : RefFits s a v → PlaceFits s t (.lookupRef a v)
  | txFunction {t f} : PlaceFits s t (.txFunction f)
  | vector {t vs} : (∀ v ∈ vs, PlaceFits s t v) → PlaceFits s t (.vector vs)
  | map {t m} : (∀ v, (dbIdKey, v) ∈ m → IdFits s v) →
      (∀ p ∈ m, p.1 ≠ dbIdKey → ∀ t', s.typeAt p.1.ahead = some t' → PlaceFits s t' p.2) → PlaceFits s t (.map m)

def EntityFits (s : Schema) : TxEntity TypedValue → Prop
  | .addOrRetract _ e a v => EntFits s e ∧ ∀ t, s.typeAt a.ahead = some t → PlaceFits s t v
  | .map m => (∀ v, (dbIdKey, v) ∈ m → IdFits s v) ∧
      ∀ p ∈ m, p.1 ≠ dbIdKey → ∀ t, s.typeAt p.1.ahead = some t → PlaceFits s t p.2

end Mentat
