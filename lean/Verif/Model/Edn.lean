import Verif.Model.Calendar
import Verif.Model.FloatText
/-
EDN values, their comparison and their printing: edn/src/types.rs:30-55, 400-640.
-/
namespace Mentat

/-- Comparison of lists element by element, the shorter first: Rust's `Iterator::cmp`, used by
`Vec`, `LinkedList`, `BTreeSet` and `str`. -/
def lexCmp (f : α → α → Ordering) : List α → List α → Ordering
  | [], [] => .eq
  | [], _ :: _ => .lt
  | _ :: _, [] => .gt
  | x :: r, y :: s => match f x y with
    | .eq => lexCmp f r s
    | o => o

/-- `i64`/`BigInt`/`bool` comparison. -/
def intCmp (a b : Int) : Ordering := if a < b then .lt else if a = b then .eq else .gt

/-- `str` comparison: UTF-8 bytes order as the code points do. -/
def textCmp (a b : Text) : Ordering := lexCmp (fun c d => intCmp c.toNat d.toNat) a b

/-- Lexicographic comparison of two pairs. -/
def pairCmp (f : α → α → Ordering) (g : β → β → Ordering) (a b : α × β) : Ordering :=
  match f a.1 b.1 with
  | .eq => g a.2 b.2
  | o => o

/-- namespaceable_name.rs:176-180 `Ord for NamespaceableName` -/
def NName.cmp (a b : NName) : Ordering := pairCmp textCmp textCmp a.parts b.parts

/-- namespaceable_name.rs:161-174 `PartialOrd for NamespaceableName` -/
def NName.partialCmp (a b : NName) : Ordering :=
  if a.boundary = 0 then (if b.boundary = 0 then textCmp a.components b.components else .lt)
  else if b.boundary = 0 then .gt
  else pairCmp textCmp textCmp a.parts b.parts

/-- `OrderedFloat<f64>`: the two zeros are equal, NaN is equal to itself and above the rest.
Finite floats as in `TypedValue.double`. -/
inductive FloatV where
  | negInf
  | finite (d : Int)
  | posInf
  | nan
  deriving DecidableEq, Repr

/-- `OrderedFloat` as a pair ordered lexicographically. -/
def FloatV.key : FloatV → Int × Int
  | .negInf => (0, 0)
  | .finite d => (1, d)
  | .posInf => (2, 0)
  | .nan => (3, 0)

/-- types.rs:33-55 `Value`.  Simplifications: sets are the list of their elements and maps the list
of their keys and values in turn, both in the `BTreeMap`'s order. -/
inductive Edn where
  | nil
  | boolean (b : Bool)
  | integer (n : Int)
  | instant (t : DateTime)
  | bigInteger (n : Int)
  | float (f : FloatV)
  | text (s : Text)
  | uuid (u : Nat)
  | plainSymbol (s : Text)
  | nsSymbol (s : NName)
  | keyword (k : NName)
  | vector (l : List Edn)
  | list (l : List Edn)
  | set (l : List Edn)
  | map (l : List Edn)
  deriving Repr

namespace Edn

/-- types.rs:449-468 `precedence` -/
def precedence : Edn → Int
  | nil => 0
  | boolean _ => 1
  | integer _ => 2
  | bigInteger _ => 3
  | float _ => 4
  | instant _ => 5
  | text _ => 6
  | uuid _ => 7
  | plainSymbol _ => 8
  | nsSymbol _ => 9
  | keyword k => if k.isNamespaced then 11 else 10
  | vector _ => 12
  | list _ => 13
  | set _ => 14
  | map _ => 15

/-- `false < true`. -/
def boolInt (b : Bool) : Int := if b then 1 else 0

mutual
/-- types.rs:507-530 `def_common_value_ord!`.  (Maps compare as lists of pairs, which is the same as
comparing the lists of keys and values in turn.) -/
def cmp : Edn → Edn → Ordering
  | nil, nil => .eq
  | boolean a, boolean b => intCmp (boolInt b) (boolInt a)
  | integer a, integer b => intCmp b a
  | instant a, instant b => pairCmp intCmp intCmp (b.secs, b.nanos) (a.secs, a.nanos)
  | bigInteger a, bigInteger b => intCmp b a
  | float a, float b => pairCmp intCmp intCmp b.key a.key
  | text a, text b => textCmp b a
  | uuid a, uuid b => intCmp b a
  | plainSymbol a, plainSymbol b => textCmp b a
  | nsSymbol a, nsSymbol b => NName.cmp b a
  | keyword a, keyword b => NName.cmp b a
  | vector a, vector b => cmpList b a
  | list a, list b => cmpList b a
  | set a, set b => cmpList b a
  | map a, map b => cmpList b a
  | a, b => intCmp a.precedence b.precedence
termination_by a b => sizeOf a + sizeOf b
/-- `Iterator::cmp` over values. -/
def cmpList : List Edn → List Edn → Ordering
  | [], [] => .eq
  | [], _ :: _ => .lt
  | _ :: _, [] => .gt
  | x :: r, y :: s => match cmp x y with
    | .eq => cmpList r s
    | o => o
termination_by a b => sizeOf a + sizeOf b
end

/-- `BTreeSet::insert` on the elements in order. -/
def setInsert (x : Edn) : List Edn → List Edn
  | [] => [x]
  | y :: r => match cmp x y with
    | .lt => x :: y :: r
    | .eq => y :: r
    | .gt => y :: setInsert x r

/-- `BTreeSet::from_iter` -/
def setOf (l : List Edn) : List Edn := l.foldl (fun s x => setInsert x s) []

/-- `BTreeMap::insert` on the entries in order. -/
def mapInsert (k v : Edn) : List (Edn × Edn) → List (Edn × Edn)
  | [] => [(k, v)]
  | (k', v') :: r => match cmp k k' with
    | .lt => (k, v) :: (k', v') :: r
    | .eq => (k', v) :: r
    | .gt => (k', v') :: mapInsert k v r

/-- `BTreeMap::from_iter` -/
def mapOf (l : List (Edn × Edn)) : List (Edn × Edn) := l.foldl (fun m p => mapInsert p.1 p.2 m) []

/-- `BTreeMap::get`, a search from the left (the tree search gives the same by the order). -/
def mapGet (k : Edn) : List (Edn × Edn) → Option Edn
  | [] => none
  | (k', v) :: r => if cmp k k' = .eq then some v else mapGet k r

/-- The entries of a map as keys and values in turn. -/
def flat (l : List (Edn × Edn)) : List Edn := l.flatMap fun p => [p.1, p.2]

end Edn

/-! ### Printing -/

namespace Edn

mutual
/-- types.rs:536-590 `def_common_value_display!`. -/
def print : Edn → Text
  | nil => ['n', 'i', 'l']
  | boolean true => ['t', 'r', 'u', 'e']
  | boolean false => ['f', 'a', 'l', 's', 'e']
  | integer n => intText n
  | instant t => ['#', 'i', 'n', 's', 't', ' ', '"'] ++ (t.rfc3339 ++ ['"'])
  | bigInteger n => intText n ++ ['N']
  | float .posInf => ['#', 'f', ' ', '+', 'I', 'n', 'f', 'i', 'n', 'i', 't', 'y']
  | float .negInf => ['#', 'f', ' ', '-', 'I', 'n', 'f', 'i', 'n', 'i', 't', 'y']
  | float .nan => ['#', 'f', ' ', 'N', 'a', 'N']
  | text s => '"' :: s ++ ['"']
  | uuid u => ['#', 'u', 'u', 'i', 'd', ' ', '"'] ++ (uuidText u ++ ['"'])
  | plainSymbol s => s
  | nsSymbol s => s.display
  | keyword k => k.displayKeyword
  | vector l => '[' :: (printList l ++ [' ', ']'])
  | list l => '(' :: (printList l ++ [' ', ')'])
  | set l => '#' :: '{' :: (printList l ++ [' ', '}'])
  | map l => '{' :: (printList l ++ [' ', '}'])
  | float (.finite d) => floatText d
/-- The elements, each after a blank. -/
def printList : List Edn → Text
  | [] => []
  | x :: r => ' ' :: (print x ++ printList r)
end

end Edn
end Mentat
