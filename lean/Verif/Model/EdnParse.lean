import Verif.Model.Edn
/-
The EDN reader: the PEG grammar of edn/src/lib.rs:73-238, as a recursive-descent function with
ordered choice and greedy repetition.

Not modelled: the spans.  For Rust's `str::parse::<f64>` see Model/FloatText.
-/
namespace Mentat

/-- Outcome of a rule: a value and the rest of the input, no match, or a panic in an action.
`stuck` marks that the bound on the recursion ran out (`parse_not_stuck`: it never does). -/
inductive PRes (α : Type) where
  | ok (a : α) (rest : Text)
  | fail
  | panic
  | stuck
  deriving Repr

namespace EdnParse

/-- lib.rs:235 `whitespace` -/
def isWs (c : Char) : Bool := c = ' ' || c = '\r' || c = '\n' || c = '\t' || c = ','

/-- lib.rs:235-238 `__`: whitespace and comments; the flag says that we are in a comment. -/
def skipF : Bool → Text → Text
  | _, [] => []
  | true, c :: r => if c = '\r' || c = '\n' then skipF false r else skipF true r
  | false, c :: r => if isWs c then skipF false r else if c = ';' then skipF true r else c :: r

/-- lib.rs:235-238 `__` -/
def skip (s : Text) : Text := skipF false s

/-- A literal. -/
def lit : Text → Text → Option Text
  | [], s => some s
  | c :: p, d :: s => if c = d then lit p s else none
  | _ :: _, [] => none

/-- The longest prefix of characters in a class, and the rest. -/
def spanC (p : Char → Bool) : Text → Text × Text
  | [] => ([], [])
  | c :: r => if p c then (c :: (spanC p r).1, (spanC p r).2) else ([], c :: r)

/-- lib.rs:85 `digit` -/
def isDigit (c : Char) : Bool := '0' ≤ c && c ≤ '9'
/-- The characters `[a-z]` of the grammar. -/
def isLower (c : Char) : Bool := 'a' ≤ c && c ≤ 'z'
/-- The characters `[A-Z]` of the grammar. -/
def isUpper (c : Char) : Bool := 'A' ≤ c && c ≤ 'Z'
/-- lib.rs:86 `alphanumeric` -/
def isAlnum (c : Char) : Bool := isDigit c || isLower c || isUpper c
/-- lib.rs:87 `octaldigit` -/
def isOctal (c : Char) : Bool := '0' ≤ c && c ≤ '7'
/-- lib.rs:89 `hex` -/
def isHex (c : Char) : Bool := isDigit c || ('a' ≤ c && c ≤ 'f') || ('A' ≤ c && c ≤ 'F')
/-- lib.rs:90 `sign` -/
def isSign (c : Char) : Bool := c = '+' || c = '-'

/-- lib.rs:181 `symbol_char_initial` -/
def isInitial (c : Char) : Bool :=
  isLower c || isUpper c || isDigit c || c = '*' || c = '!' || c = '_' || c = '?' || c = '$' || c = '%' ||
  c = '&' || c = '=' || c = '<' || c = '>'

/-- lib.rs:182 `symbol_char_subsequent` -/
def isSubsequent (c : Char) : Bool := c = '+' || isInitial c || c = '-'

/-- `char::to_digit` -/
def charDigit (c : Char) : Nat :=
  if isDigit c then c.toNat - 48 else if isLower c then c.toNat - 87 else c.toNat - 55

/-- `from_str_radix` without sign, `none` on a digit that is too large. -/
def radixValue (b : Nat) (s : Text) : Option Nat :=
  s.foldl (fun a c => a.bind fun n => if charDigit c < b then some (n * b + charDigit c) else none) (some 0)

/-- `.unwrap()` of an `i64` parse. -/
def i64Res (neg : Bool) (n : Option Nat) (rest : Text) : PRes Edn :=
  match n with
  | none => .panic
  | some n =>
    let z : Int := if neg then -(n : Int) else n
    if -(2 ^ 63) ≤ z ∧ z < 2 ^ 63 then .ok (.integer z) rest else .panic

/-- An optional sign: whether it is a minus, and the rest. -/
def optSign : Text → Bool × Text
  | c :: r => if isSign c then (decide (c = '-'), r) else (false, c :: r)
  | [] => (false, [])

/-- lib.rs:92-93 `raw_bigint` -/
def bigint (s : Text) : PRes Edn :=
  let d := spanC isDigit (optSign s).2
  if d.1 = [] then .fail
  else match lit ['N'] d.2 with
    | none => .fail
    | some rest =>
      match radixValue 10 d.1 with
      | some n => .ok (.bigInteger (if (optSign s).1 then -(n : Int) else n)) rest
      | none => .panic

/-- lib.rs:88 `validbase` -/
def validbase : Text → Option (Nat × Text)
  | c :: d :: r =>
    if c = '3' && ('0' ≤ d && d ≤ '6') then some (30 + charDigit d, r)
    else if (c = '1' || c = '2') && isDigit d then some (10 * charDigit c + charDigit d, r)
    else if '2' ≤ c && c ≤ '9' then some (charDigit c, d :: r)
    else none
  | [c] => if '2' ≤ c && c ≤ '9' then some (charDigit c, []) else none
  | [] => none

/-- lib.rs:98-99 `raw_basedinteger` -/
def basedinteger (s : Text) : PRes Edn :=
  match validbase s with
  | none => .fail
  | some (b, r) =>
    match lit ['r'] r with
    | none => .fail
    | some r =>
      if (spanC isAlnum r).1 = [] then .fail
      else i64Res false (radixValue b (spanC isAlnum r).1) (spanC isAlnum r).2

/-- lib.rs:96-97 `raw_hexinteger` -/
def hexinteger (s : Text) : PRes Edn :=
  match lit ['0', 'x'] s with
  | none => .fail
  | some r =>
    if (spanC isHex r).1 = [] then .fail
    else i64Res false (radixValue 16 (spanC isHex r).1) (spanC isHex r).2

/-- lib.rs:94-95 `raw_octalinteger` -/
def octalinteger (s : Text) : PRes Edn :=
  match lit ['0'] s with
  | none => .fail
  | some r =>
    if (spanC isOctal r).1 = [] then .fail
    else i64Res false (radixValue 8 (spanC isOctal r).1) (spanC isOctal r).2

/-- lib.rs:100-101 `raw_integer` -/
def integer (s : Text) : PRes Edn :=
  let d := spanC isDigit (optSign s).2
  if d.1 = [] then .fail
  else if d.2.head?.any (fun c => c = '.' || c = 'e' || c = 'E') then .fail
  else i64Res (optSign s).1 (radixValue 10 d.1) d.2

/-- The optional fraction of lib.rs:102. -/
def fraction : Text → Text
  | '.' :: r => if (spanC isDigit r).1 = [] then '.' :: r else (spanC isDigit r).2
  | s => s

/-- The optional exponent of lib.rs:102. -/
def exponent : Text → Text
  | c :: r =>
    if c = 'e' || c = 'E' then
      if (spanC isDigit (optSign r).2).1 = [] then c :: r else (spanC isDigit (optSign r).2).2
    else c :: r
  | [] => []

/-- The digits of the fraction. -/
def fractionDigits : Text → Text
  | '.' :: r => (spanC isDigit r).1
  | _ => []

/-- The exponent, 0 if there is none. -/
def exponentValue : Text → Int
  | c :: r =>
    if c = 'e' || c = 'E' then
      let n : Nat := (radixValue 10 (spanC isDigit (optSign r).2).1).getD 0
      if (optSign r).1 then -(n : Int) else n
    else 0
  | [] => 0

/-- `str::parse::<f64>` of a text of the grammar of lib.rs:102. -/
def readFloat (s : Text) : FloatV :=
  let i := spanC isDigit (optSign s).2
  let f := fractionDigits i.2
  let n := (radixValue 10 (i.1 ++ f)).getD 0
  let e := exponentValue (fraction i.2) - f.length
  let v := if 0 ≤ e then roundDouble (n * 10 ^ e.toNat * 2 ^ 1074) 1 else roundDouble (n * 2 ^ 1074) (10 ^ (-e).toNat)
  match v with
  | some d => .finite (if (optSign s).1 then -(d : Int) else d)
  | none => if (optSign s).1 then .negInf else .posInf

/-- lib.rs:102-103 `raw_float` -/
def float (s : Text) : PRes Edn :=
  let d := spanC isDigit (optSign s).2
  if d.1 = [] then .fail
  else
    let rest := exponent (fraction d.2)
    .ok (.float (readFloat (s.take (s.length - rest.length)))) rest

/-- Ordered choice. -/
def PRes.orElse {α : Type} (a : PRes α) (b : Unit → PRes α) : PRes α :=
  match a with
  | .fail => b ()
  | r => r

/-- lib.rs:112 `number` -/
def number (s : Text) : PRes Edn :=
  PRes.orElse (bigint s) fun _ => PRes.orElse (basedinteger s) fun _ => PRes.orElse (hexinteger s) fun _ =>
  PRes.orElse (octalinteger s) fun _ => PRes.orElse (integer s) fun _ => float s

/-- lib.rs:75 `nil`, 81-83 `boolean` -/
def word (w : Text) (v : Edn) (s : Text) : PRes Edn :=
  match lit w s with
  | some r => .ok v r
  | none => .fail

/-- lib.rs:76 `nan` -/
def nan (s : Text) : PRes Edn :=
  match lit ['#', 'f'] s with
  | none => .fail
  | some r =>
    if (spanC isWs r).1 = [] then .fail
    else word ['N', 'a', 'N'] (.float .nan) (spanC isWs r).2

/-- lib.rs:78-79 `infinity` -/
def infinity (s : Text) : PRes Edn :=
  match lit ['#', 'f'] s with
  | none => .fail
  | some r =>
    if (spanC isWs r).1 = [] then .fail
    else match (spanC isWs r).2 with
      | '+' :: r => word ['I', 'n', 'f', 'i', 'n', 'i', 't', 'y'] (.float .posInf) r
      | '-' :: r => word ['I', 'n', 'f', 'i', 'n', 'i', 't', 'y'] (.float .negInf) r
      | _ => .fail

/-- lib.rs:116-127 the inside of `raw_text`, with its closing quote; a backslash followed by one of
`\ " n t r` gives that character. -/
def textTail : Text → Option (Text × Text)
  | [] => none
  | '"' :: r => some ([], r)
  | '\\' :: c :: r =>
    if c = '\\' || c = '"' || c = 'n' || c = 't' || c = 'r' then
      (textTail r).map fun p => (c :: p.1, p.2)
    else none
  | ['\\'] => none
  | c :: r => (textTail r).map fun p => (c :: p.1, p.2)

/-- lib.rs:129-130 `text` -/
def text (s : Text) : PRes Edn :=
  match s with
  | '"' :: r => match textTail r with
    | some (t, rest) => .ok (.text t) rest
    | none => .fail
  | _ => .fail

/-- The continuation of lib.rs:184 `symbol_namespace` after its first character. -/
def nsTail : Text → Text × Text
  | [] => ([], [])
  | c :: r =>
    if isSubsequent c || (c = '.' && r.head?.any isSubsequent) then (c :: (nsTail r).1, (nsTail r).2)
    else ([], c :: r)

/-- lib.rs:184 `symbol_namespace`, followed by the separator. -/
def nsPart : Text → Option (Text × Text)
  | c :: r =>
    if isInitial c then match lit ['/'] (nsTail r).2 with
      | some rest => some (c :: (nsTail r).1, rest)
      | none => none
    else none
  | [] => none

/-- lib.rs:185 `symbol_name` -/
def symbolName : Text → Option (Text × Text)
  | c :: r => if isInitial c then some (c :: (spanC isSubsequent r).1, (spanC isSubsequent r).2) else none
  | [] => none

/-- lib.rs:186 `plain_symbol_name` -/
def plainSymbolName (s : Text) : Option (Text × Text) :=
  match symbolName s with
  | some p => some p
  | none => match lit ['.', '.', '.'] s with
    | some r => some (['.', '.', '.'], r)
    | none => match lit ['.'] s with
      | some r => some (['.'], r)
      | none => none

/-- `from_keyword`/`from_symbol`: a panic of the constructor is a panic of the parser. -/
def build (k : Res NName) (f : NName → Edn) (rest : Text) : PRes Edn :=
  match k with
  | .ok k => .ok (f k) rest
  | _ => .panic

/-- lib.rs:196-201 `keyword` -/
def keyword (s : Text) : PRes Edn :=
  match lit [':'] s with
  | none => .fail
  | some s =>
    match nsPart s with
    | some (ns, r) => match symbolName r with
      | some (n, rest) => build (NName.namespaced ns n) .keyword rest
      | none => .fail
    | none => match symbolName s with
      | some (n, rest) => build (NName.plain n) .keyword rest
      | none => .fail

/-- lib.rs:190-194 `symbol` -/
def symbol (s : Text) : PRes Edn :=
  match nsPart s with
  | some (ns, r) => match plainSymbolName r with
    | some (n, rest) => build (NName.namespaced ns n) .nsSymbol rest
    | none => .fail
  | none => match plainSymbolName s with
    | some (n, rest) => .ok (.plainSymbol n) rest
    | none => .fail

/-! ### Instants and UUIDs -/

/-- A digit up to `hi`. -/
def digitTo (hi : Char) : Text → Option (Nat × Text)
  | c :: r => if '0' ≤ c && c ≤ hi then some (charDigit c, r) else none
  | [] => none

/-- Two digits, the first up to `hi`. -/
def twoDigits (hi : Char) (s : Text) : Option (Nat × Text) :=
  (digitTo hi s).bind fun a => (digitTo '9' a.2).map fun b => (10 * a.1 + b.1, b.2)

/-- The optional fraction of lib.rs:139, in nanoseconds: chrono takes nine digits and ignores the rest.  `none` where the
point is not followed by a digit (the rule then goes on at the point, and fails there). -/
def nanosPart : Text → Option (Nat × Text)
  | '.' :: r =>
    if (spanC isDigit r).1 = [] then none
    else (radixValue 10 (((spanC isDigit r).1 ++ List.replicate 9 '0').take 9)).map fun n => (n, (spanC isDigit r).2)
  | s => some (0, s)

/-- lib.rs:140, `Z` or an offset, in seconds. -/
def offsetPart : Text → Option (Int × Text)
  | 'Z' :: r => some (0, r)
  | c :: r =>
    if c = '+' || c = '-' then
      (twoDigits '2' r).bind fun h => (lit [':'] h.2).bind fun r => (twoDigits '5' r).map fun m =>
        (let o : Int := 3600 * h.1 + 60 * m.1
         if c = '-' then -o else o, m.2)
    else none
  | [] => none

/-- chrono `DateTime::parse_from_rfc3339` on a text of this shape, brought to UTC: the numbers must be a date and a time
(the second 60 is a leap second), and the offset less than a day. -/
def mkInstant (y m d h mi s n : Nat) (off : Int) : Option DateTime :=
  if 1 ≤ m ∧ m ≤ 12 ∧ 1 ≤ d ∧ (d : Int) ≤ Date.daysIn y m ∧ h ≤ 23 ∧ mi ≤ 59 ∧ s ≤ 60 ∧ -86400 < off ∧ off < 86400 then
    some ⟨Date.dayNumber ⟨y, m, d⟩ * 86400 + 3600 * h + 60 * mi + (if s = 60 then 59 else s : Nat) - off,
      (n : Int) + if s = 60 then 1000000000 else 0⟩
  else none

/-- The shape of lib.rs:136-140 and what chrono makes of it. -/
def stamp (s : Text) : Option (Option DateTime × Text) :=
  (twoDigits '9' s).bind fun y1 => (twoDigits '9' y1.2).bind fun y2 => (lit ['-'] y2.2).bind fun r =>
  (twoDigits '2' r).bind fun m => (lit ['-'] m.2).bind fun r => (twoDigits '3' r).bind fun d => (lit ['T'] d.2).bind fun r =>
  (twoDigits '2' r).bind fun h => (lit [':'] h.2).bind fun r => (twoDigits '5' r).bind fun mi => (lit [':'] mi.2).bind fun r =>
  (twoDigits '6' r).bind fun sc => (nanosPart sc.2).bind fun n => (offsetPart n.2).map fun o =>
  (mkInstant (100 * y1.1 + y2.1) m.1 d.1 h.1 mi.1 sc.1 n.1 o.1, o.2)

/-- A tag, at least one space, and what follows them. -/
def tagged (tag : Text) (s : Text) : Option Text :=
  (lit tag s).bind fun r => if (spanC isWs r).1 = [] then none else some (spanC isWs r).2

/-- lib.rs:135-146 `inst_string` -/
def instString (s : Text) : PRes Edn :=
  match (tagged ['#', 'i', 'n', 's', 't'] s).bind fun r => (lit ['"'] r).bind fun r => (stamp r).bind fun t =>
    (lit ['"'] t.2).map fun rest => (t.1, rest) with
  | some (some t, rest) => .ok (.instant t) rest
  | _ => .fail

/-- The last year of chrono (`i32::MAX >> 13`; later versions of the crate have one less). -/
def maxYear : Int := 262143

/-- lib.rs:148-162 `inst_micros` and `inst_millis`, with `k` units in a second.  `unwrap` of the number and `Utc.timestamp`
panic on what is too large. -/
def instUnits (tag : Text) (k : Nat) (s : Text) : PRes Edn :=
  match tagged tag s with
  | none => .fail
  | some r =>
    if (spanC isDigit r).1 = [] then .fail
    else match radixValue 10 (spanC isDigit r).1 with
      | none => .panic
      | some n =>
        if n < 2 ^ 63 ∧ (Date.ofDayNumber ((n / k : Nat) / 86400)).y ≤ maxYear then
          .ok (.instant ⟨(n / k : Nat), (n % k * (1000000000 / k) : Nat)⟩) (spanC isDigit r).2
        else .panic

/-- lib.rs:164-165 `inst` -/
def inst (s : Text) : PRes Edn :=
  PRes.orElse (instUnits ['#', 'i', 'n', 's', 't', 'm', 'i', 'l', 'l', 'i', 's'] 1000 s) fun _ =>
  PRes.orElse (instUnits ['#', 'i', 'n', 's', 't', 'm', 'i', 'c', 'r', 'o', 's'] 1000000 s) fun _ => instString s

/-- `['a'..='f' | '0'..='9']` -/
def isLowHex (c : Char) : Bool := ('a' ≤ c && c ≤ 'f') || isDigit c

/-- Exactly `n` such digits. -/
def hexRun : Nat → Text → Option (Text × Text)
  | 0, s => some ([], s)
  | n + 1, c :: r => if isLowHex c then (hexRun n r).map fun p => (c :: p.1, p.2) else none
  | _ + 1, [] => none

/-- lib.rs:167-173 `uuid_string` and `uuid` -/
def uuid (s : Text) : PRes Edn :=
  match (tagged ['#', 'u', 'u', 'i', 'd'] s).bind fun r => (lit ['"'] r).bind fun r =>
    (hexRun 8 r).bind fun a => (lit ['-'] a.2).bind fun r => (hexRun 4 r).bind fun b => (lit ['-'] b.2).bind fun r =>
    (hexRun 4 r).bind fun c => (lit ['-'] c.2).bind fun r => (hexRun 4 r).bind fun d => (lit ['-'] d.2).bind fun r =>
    (hexRun 12 r).bind fun e => (lit ['"'] e.2).map fun rest => (a.1 ++ (b.1 ++ (c.1 ++ (d.1 ++ e.1))), rest) with
  | some (t, rest) => match radixValue 16 t with
    | some u => .ok (.uuid u) rest
    | none => .panic
  | none => .fail

/-- The alternatives of lib.rs:222 `value` that are not collections. -/
def atom (s : Text) : PRes Edn :=
  PRes.orElse (word ['n', 'i', 'l'] .nil s) fun _ =>
  PRes.orElse (nan s) fun _ => PRes.orElse (infinity s) fun _ =>
  PRes.orElse (word ['t', 'r', 'u', 'e'] (.boolean true) s) fun _ =>
  PRes.orElse (word ['f', 'a', 'l', 's', 'e'] (.boolean false) s) fun _ =>
  PRes.orElse (number s) fun _ => PRes.orElse (inst s) fun _ => PRes.orElse (uuid s) fun _ => PRes.orElse (text s) fun _ => PRes.orElse (keyword s) fun _ => symbol s

/-- The end of a collection: `__` and the closing bracket. -/
def close (c : Char) (r : PRes (List Edn)) (f : List Edn → Edn) : PRes Edn :=
  match r with
  | .ok l rest => match lit [c] (skip rest) with
    | some rest => .ok (f l) rest
    | none => .fail
  | .fail => .fail
  | .panic => .panic
  | .stuck => .stuck

/-- Keys and values in turn, as pairs. -/
def pairUp : List Edn → List (Edn × Edn)
  | k :: v :: r => (k, v) :: pairUp r
  | _ => []

mutual
/-- lib.rs:221-228 `value` -/
def value : Nat → Text → PRes Edn
  | 0, _ => .stuck
  | n + 1, s =>
    match PRes.orElse (atom (skip s)) fun _ => collection n (skip s) with
    | .ok v rest => .ok v (skip rest)
    | r => r
/-- lib.rs:203-218 `list`, `vector`, `map`, `set`; the choice is by the first characters. -/
def collection : Nat → Text → PRes Edn
  | 0, _ => .stuck
  | n + 1, s => match s with
    | '(' :: r => close ')' (values n (skip r)) .list
    | '[' :: r => close ']' (values n (skip r)) .vector
    | '{' :: r => close '}' (pairs n (skip r)) fun l => .map (Edn.flat (Edn.mapOf (pairUp l)))
    | '#' :: '{' :: r => close '}' (values n (skip r)) fun l => .set (Edn.setOf l)
    | _ => .fail
/-- `value()*` -/
def values : Nat → Text → PRes (List Edn)
  | 0, _ => .stuck
  | n + 1, s => match value n s with
    | .ok v rest => match values n rest with
      | .ok l rest => .ok (v :: l) rest
      | r => r
    | .fail => .ok [] s
    | .panic => .panic
    | .stuck => .stuck
/-- lib.rs:212-217 `pair()*`, as keys and values in turn. -/
def pairs : Nat → Text → PRes (List Edn)
  | 0, _ => .stuck
  | n + 1, s => match value n s with
    | .ok k r => match value n r with
      | .ok v r => match pairs n r with
        | .ok l rest => .ok (k :: v :: l) rest
        | r => r
      | .fail => .ok [] s
      | .panic => .panic
      | .stuck => .stuck
    | .fail => .ok [] s
    | .panic => .panic
    | .stuck => .stuck
end

/-- `parse::value`: the whole input is one value.  The bound on the recursion is above the number of
steps any input needs. -/
def parse (s : Text) : PRes Edn :=
  match value (4 * s.length + 4) s with
  | .ok v [] => .ok v []
  | .ok _ _ => .fail
  | r => r

end EdnParse
end Mentat
