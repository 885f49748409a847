import Verif.Model.Edn
/-
Matching EDN values against patterns: edn/src/matcher.rs.

The map of placeholders (a `RefCell`, matcher.rs:60) is threaded as a list of pairs; what an attempt that fails has put
there stays there, as in the code.
-/
namespace Mentat.Edn

mutual
/-- types.rs:31, the derived equality. -/
def same : Edn → Edn → Bool
  | nil, nil => true
  | boolean a, boolean b => a = b
  | integer a, integer b => a = b
  | instant a, instant b => a = b
  | bigInteger a, bigInteger b => a = b
  | float a, float b => a = b
  | text a, text b => a = b
  | uuid a, uuid b => a = b
  | plainSymbol a, plainSymbol b => a = b
  | nsSymbol a, nsSymbol b => a = b
  | keyword a, keyword b => a = b
  | vector a, vector b => sameAll a b
  | list a, list b => sameAll a b
  | set a, set b => sameAll a b
  | map a, map b => sameAll a b
  | _, _ => false
/-- The same, element by element. -/
def sameAll : List Edn → List Edn → Bool
  | [], [] => true
  | a :: l, b :: m => same a b && sameAll l m
  | _, _ => false
end

/-- matcher.rs:60 `placeholders` -/
abbrev Bound := List (Text × Edn)

/-- What matching does: the answer, and the placeholders afterwards. -/
abbrev Match := Bound → Bool × Bound

/-- `&&` -/
def Match.and (f g : Match) : Match := fun b =>
  let r := f b
  if r.1 then g r.2 else (false, r.2)

/-- `Iterator::all` -/
def Match.all (f : α → Match) : List α → Match
  | [] => fun b => (true, b)
  | x :: l => (f x).and (Match.all f l)

/-- `Iterator::any` -/
def Match.any (f : α → Match) : List α → Match
  | [] => fun b => (false, b)
  | x :: l => fun b =>
    let r := f x b
    if r.1 then (true, r.2) else Match.any f l r.2

/-- itertools `diff_with(v, p, …).is_none()`; the second list holds what matches each pattern. -/
def Match.zip : List Edn → List (Edn → Match) → Match
  | [], [] => fun b => (true, b)
  | v :: l, m :: ms => (m v).and (Match.zip l ms)
  | _, _ => fun b => (false, b)

/-- Entries of a list of keys and values in turn. -/
def twos : List α → List (α × α)
  | k :: v :: l => (k, v) :: twos l
  | _ => []

/-- matcher.rs:103-109, 112-124: both iterations over the members of two sets, or the entries of two maps. -/
def Match.both (f : α → β → Match) (vs : List α) (ps : List β) : Match :=
  (Match.all (fun a => Match.any (fun b => f a b) ps) vs).and (Match.all (fun b => Match.any (fun a => f a b) vs) ps)

/-- matcher.rs:94: `value == *placeholders.entry(symbol).or_insert(value)` -/
def Match.placeholder (s : Text) (v : Edn) : Match := fun b =>
  match b.lookup s with
  | some w => (same v w, b)
  | none => (true, (s, v) :: b)

/-- matcher.rs:127 `_ => value == pattern` -/
def Match.literal (p v : Edn) : Match := fun b => (same v p, b)

mutual
/-- matcher.rs:82-128 `match_internal`, by recursion on the pattern. -/
def matcher : Edn → Edn → Match
  | plainSymbol s, v =>
    if s.head? = some '_' then fun b => (true, b)
    else if s.head? = some '?' then Match.placeholder s v
    else Match.literal (plainSymbol s) v
  | vector p, v => match v with
    | vector l => Match.zip l (matchers p)
    | v => Match.literal (vector p) v
  | list p, v => match v with
    | list l => Match.zip l (matchers p)
    | v => Match.literal (list p) v
  | set p, v => match v with
    | set l => if l.length = p.length then Match.both (fun a m => m a) l (matchers p) else fun b => (false, b)
    | v => Match.literal (set p) v
  | map p, v => match v with
    | map l =>
      if l.length = p.length then Match.both (fun a m => (m.1 a.1).and (m.2 a.2)) (twos l) (twos (matchers p)) else fun b => (false, b)
    | v => Match.literal (map p) v
  | p, v => Match.literal p v
/-- The matchers of the elements of a pattern. -/
def matchers : List Edn → List (Edn → Match)
  | [] => []
  | p :: l => matcher p :: matchers l
end

/-- matcher.rs:131-137 `Value::matches` -/
def fitsPattern (v p : Edn) : Bool := (matcher p v []).1

end Mentat.Edn
