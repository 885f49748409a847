import Verif.Model.Pull
import Verif.Spec.Transact
/-
What a pull is asked for and what the store holds for it, without reference to how it is fetched.
-/
namespace Mentat

/-- The spec asks for attribute `a` under the name `n`: a wildcard for every attribute under its ident,
a named attribute under its alias or, failing that, its ident. -/
inductive Asks (s : Schema) : PullSpec → Entid → Keyword → Prop
  | wildcard {a n} : a ∈ AMap.keys s.attributeMap → AMap.get s.entidMap a = some n → Asks s .wildcard a n
  | ident {k a} : k ≠ dbIdKeyword → AMap.get s.identMap k = some a →
      Asks s (.attr (.ident k) none) a k
  | identAs {k a n} : k ≠ dbIdKeyword → AMap.get s.identMap k = some a →
      Asks s (.attr (.ident k) (some n)) a n
  | entid {a n} : AMap.get s.entidMap a = some n → Asks s (.attr (.entid a) none) a n
  | entidAs {a n} : Asks s (.attr (.entid a) (some n)) a n

/-- The spec asks for the entity itself under the name `n`. -/
inductive AsksId : PullSpec → Keyword → Prop
  | plain : AsksId (.attr (.ident dbIdKeyword) none) dbIdKeyword
  | as {n} : AsksId (.attr (.ident dbIdKeyword) (some n)) n

/-- What the store holds for attribute `a` of `e`: the value of a cardinality-one attribute, all the
values of a cardinality-many attribute, and nothing if there is none. -/
inductive Holds (s : Schema) (rows : List Row) (e a : Entid) : PullVal → Prop
  | one {at_ v} : s.attr a = some at_ → at_.multival = false → Has rows e a v → Holds s rows e a (.scalar v)
  | many {at_ vs} : s.attr a = some at_ → at_.multival = true → vs ≠ [] → vs.Nodup →
      (∀ v, v ∈ vs ↔ Has rows e a v) → Holds s rows e a (.vec vs)

/-- What pulling `specs` for `e` is to show under `n`. -/
inductive Shows (s : Schema) (rows : List Row) (specs : List PullSpec) (e : Entid) (n : Keyword) :
    PullVal → Prop
  | id {sp} : sp ∈ specs → AsksId sp n → Shows s rows specs e n (.scalar (.ref e))
  | attr {sp a b} : sp ∈ specs → Asks s sp a n → Holds s rows e a b → Shows s rows specs e n b

/-- Nothing comes after a wildcard. -/
def NoneAfterWildcard : List PullSpec → Prop
  | [] => True
  | .wildcard :: r => r = []
  | .attr _ _ :: r => NoneAfterWildcard r

/-- The specs give each attribute one name, each name to one attribute, no attribute the name of the
entity itself, and end with the wildcard if there is one. -/
structure Unambiguous (s : Schema) (specs : List PullSpec) : Prop where
  last : NoneAfterWildcard specs
  oneName : ∀ sp ∈ specs, ∀ sp' ∈ specs, ∀ a n n', Asks s sp a n → Asks s sp' a n' → n = n'
  oneAttr : ∀ sp ∈ specs, ∀ sp' ∈ specs, ∀ a a' n, Asks s sp a n → Asks s sp' a' n → a = a'
  idName : ∀ sp ∈ specs, ∀ sp' ∈ specs, ∀ a n, AsksId sp n → ¬ Asks s sp' a n

/-- Equal but for the order of the values of a cardinality-many attribute. -/
inductive PullVal.Same : PullVal → PullVal → Prop
  | scalar (v) : Same (.scalar v) (.scalar v)
  | vec {l l'} : l.Perm l' → Same (.vec l) (.vec l')

/-- The value under `n` in the map of `e`. -/
def PullResults.at (m : PullResults) (e : Entid) (n : Keyword) : Option PullVal :=
  (AMap.get m e).bind fun x => AMap.get x n

/-- The map `m` is what pulling `specs` for `e` is to show. -/
def Correct (s : Schema) (rows : List Row) (specs : List PullSpec) (e : Entid) (m : PullMap) : Prop :=
  ∀ n b, Shows s rows specs e n b ↔ ∃ b', AMap.get m n = some b' ∧ b.Same b'

end Mentat
