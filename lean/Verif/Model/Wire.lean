import Verif.Model.SyncFlow
import Verif.Model.EdnParse
import Verif.Model.FloatText
/-
The JSON that a chunk is uploaded as and what is read of it: tolstoy/src/remote_client.rs:186-211, 281-287, the derived
`Serialize` and `Deserialize` of tolstoy/src/types.rs:71-82, db/src/types.rs:29, 90, core-traits/lib.rs:406-417 and the
hand-written ones of edn/src/namespaceable_name.rs:207-251.

What the derived implementations and serde_json do is not in the repository.  Modelled is their documented behaviour: a struct is
an object with its fields in order (read in any order, unknown fields ignored, a missing `Option` is `None`; or read from an array),
an enum is an object with the variant as only key, a map has its keys in order, `Option` is `null` or the value, a newtype
is what is in it.  Strings are modelled character by character; a string is kept as what stands between the quotes.
A number with a point or an exponent is kept as its digits and the power of ten that they are multiplied by.
-/
namespace Mentat.Wire

open Mentat.Sync (TxPart)

/-- JSON, with strings as written and numbers as their parts. -/
inductive Json where
  | null
  | bool (b : Bool)
  | int (n : Int)
  | float (neg : Bool) (sig : Nat) (exp : Int)
  | str (raw : Text)
  | arr (l : List Json)
  | obj (l : List (Text × Json))
  deriving Repr

/-! ### Strings -/

/-- serde_json `format_escaped_str`: quotes, backslashes and control characters are escaped, nothing else. -/
def escapeChar (c : Char) : Text :=
  if c = '"' then ['\\', '"']
  else if c = '\\' then ['\\', '\\']
  else if c.toNat = 8 then ['\\', 'b']
  else if c.toNat = 9 then ['\\', 't']
  else if c.toNat = 10 then ['\\', 'n']
  else if c.toNat = 12 then ['\\', 'f']
  else if c.toNat = 13 then ['\\', 'r']
  else if c.toNat < 32 then ['\\', 'u', '0', '0', hexChar (c.toNat / 16), hexChar (c.toNat % 16)]
  else [c]

/-- serde_json: a string as written. -/
def escape : Text → Text
  | [] => []
  | c :: s => escapeChar c ++ escape s

/-- A hexadecimal digit in either case. -/
def hexValue (c : Char) : Option Nat :=
  if '0' ≤ c ∧ c ≤ '9' then some (c.toNat - 48)
  else if 'a' ≤ c ∧ c ≤ 'f' then some (c.toNat - 87)
  else if 'A' ≤ c ∧ c ≤ 'F' then some (c.toNat - 55)
  else none

/-- Four hexadecimal digits. -/
def hex4 (a b c d : Char) : Option Nat :=
  (hexValue a).bind fun a => (hexValue b).bind fun b => (hexValue c).bind fun c => (hexValue d).map fun d =>
  ((a * 16 + b) * 16 + c) * 16 + d

/-- The simple escapes. -/
def unescapeChar (c : Char) : Option Char :=
  if c = '"' ∨ c = '\\' ∨ c = '/' then some c
  else if c = 'b' then some (Char.ofNat 8)
  else if c = 'f' then some (Char.ofNat 12)
  else if c = 'n' then some (Char.ofNat 10)
  else if c = 'r' then some (Char.ofNat 13)
  else if c = 't' then some (Char.ofNat 9)
  else none

/-- serde_json `SliceRead::parse_str`: what the characters between the quotes say; control characters are errors, and so are
halves of surrogate pairs.  The first argument is the half of a pair that was just read. -/
def unescapeFrom : Option Nat → Text → Option Text
  | none, [] => some []
  | some _, [] => none
  | o, '\\' :: 'u' :: a :: b :: c :: d :: s =>
    (hex4 a b c d).bind fun m => match o with
    | some n =>
      if 0xDC00 ≤ m ∧ m < 0xE000 then
        (unescapeFrom none s).map (Char.ofNat (0x10000 + (n - 0xD800) * 0x400 + (m - 0xDC00)) :: ·)
      else none
    | none =>
      if 0xD800 ≤ m ∧ m < 0xDC00 then unescapeFrom (some m) s
      else if 0xDC00 ≤ m ∧ m < 0xE000 then none
      else (unescapeFrom none s).map (Char.ofNat m :: ·)
  | none, '\\' :: c :: s => (unescapeChar c).bind fun c => (unescapeFrom none s).map (c :: ·)
  | none, c :: s => if c = '\\' ∨ c = '"' ∨ c.toNat < 32 then none else (unescapeFrom none s).map (c :: ·)
  | some _, _ :: _ => none

/-- serde_json: what a written string stands for. -/
def unescape (s : Text) : Option Text := unescapeFrom none s

/-- Reading a `&str`: it must be part of the text read, so that nothing in it may be escaped
(serde_json `Reference::Copied` is not a borrowed string). -/
def borrowed (raw : Text) : Option Text := if '\\' ∈ raw then none else unescape raw

/-! ### Doubles -/

/-- The digits and the exponent that the text of a finite double (the `ryu` crate: the shortest digits that read back) is read as.
A whole number of at most 16 digits is written with `.0` and not with an exponent. -/
def floatParts (d : Int) : Nat × Int :=
  let c := shortest d.natAbs
  if c = 0 then (0, -1)
  else
    let f := dropZeros 1383 c
    let k : Int := 309 - f.2
    if 0 ≤ k ∧ (decimal f.1).length + k ≤ 16 then (f.1 * 10 ^ (k.toNat + 1), -1) else (f.1, k)

/-- `as f64`: the nearest double. -/
def asDouble (n : Nat) : Option Nat := roundDouble (n * 2 ^ 1074) 1

/-- serde_json `POW10`: the doubles nearest to the powers of ten. -/
def pow10 (n : Nat) : Nat := (asDouble (10 ^ n)).getD 0

/-- serde_json `f64_from_parts`, the loop; `n` bounds the steps. -/
def scale : Nat → Nat → Int → Option Nat
  | 0, _, _ => none
  | n + 1, f, e =>
    if e.natAbs ≤ 308 then
      if 0 ≤ e then roundDouble (f * pow10 e.natAbs) (2 ^ 1074) else roundDouble (f * 2 ^ 1074) (pow10 e.natAbs)
    else if f = 0 then some 0
    else if 0 ≤ e then none
    else (roundDouble (f * 2 ^ 1074) (pow10 308)).bind fun f => scale n f (e + 308)

/-- serde_json `f64_from_parts` (the crate is used without its feature `float_roundtrip`: public-traits/Cargo.toml,
tolstoy/Cargo.toml:21): the digits as a double, times or over a power of ten as a double, each rounded. -/
def readDouble (sig : Nat) (exp : Int) : Option Nat :=
  (asDouble sig).bind fun f => scale (exp.natAbs / 308 + 2) f exp

/-- serde_json `serialize_f64`: what is not finite is written as `null`. -/
def encodeFloat : FloatV → Json
  | .finite d => .float (decide (d < 0)) (floatParts d).1 (floatParts d).2
  | _ => .null

/-- A magnitude with its sign. -/
def signed (neg : Bool) : Option Nat → Res Int
  | some v => .ok (if neg then - (v : Int) else v)
  | none => .err .other

/-- Reading an `f64`: any number. -/
def decodeFloat : Json → Res Int
  | .float neg sig exp => signed neg (readDouble sig exp)
  | .int n => signed (decide (n < 0)) (asDouble n.natAbs)
  | _ => .err .other

/-! ### Values -/

/-- Reading an `i64`. -/
def decodeInt : Json → Res Int
  | .int n => if -9223372036854775808 ≤ n ∧ n ≤ 9223372036854775807 then .ok n else .err .other
  | _ => .err .other

/-- Reading a `bool`. -/
def decodeBool : Json → Res Bool
  | .bool b => .ok b
  | _ => .err .other

/-- Reading a `String`. -/
def decodeString : Json → Res Text
  | .str raw => match unescape raw with
    | some s => .ok s
    | none => .err .other
  | _ => .err .other

/-- edn/src/namespaceable_name.rs:210-213: the parts are read as `&str`. -/
def decodeBorrowed : Json → Res Text
  | .str raw => match borrowed raw with
    | some s => .ok s
    | none => .err .other
  | _ => .err .other

/-- The field of a struct with `n` fields, of which it is number `i`. -/
def Json.field (j : Json) (n i : Nat) (name : Text) : Res (Option Json) :=
  match j with
  | .obj l => match l.filter fun p => decide (unescape p.1 = some name) with
    | [] => .ok none
    | [p] => .ok (some p.2)
    | _ => .err .other
  | .arr l => if l.length = n then .ok l[i]? else .err .other
  | _ => .err .other

/-- A field that must be there. -/
def Json.need (j : Json) (n i : Nat) (name : Text) : Res Json :=
  (j.field n i name).bind fun o => match o with
  | some j => .ok j
  | none => .err .other

/-- A field that is an `Option`. -/
def optional {α : Type} (f : Json → Res α) : Option Json → Res (Option α)
  | none | some .null => .ok none
  | some j => (f j).bind fun a => .ok (some a)

/-- namespaceable_name.rs:240-251; `Keyword` (edn/src/symbols.rs:67) is a newtype. -/
def encodeKeyword (k : Keyword) : Json :=
  .obj [("namespace".toList, if k.ns = [] then .null else .str (escape k.ns)), ("name".toList, .str (escape k.name))]

/-- namespaceable_name.rs:216-237 -/
def decodeKeyword (j : Json) : Res Keyword :=
  (j.field 2 0 "namespace".toList).bind fun ns =>
  (optional decodeBorrowed ns).bind fun ns =>
  (j.need 2 1 "name".toList).bind fun name =>
  (decodeBorrowed name).bind fun name =>
  if name = [] then .err .other
  else match ns with
    | some [] => .err .other
    | some ns => .ok ⟨ns, name⟩
    | none => .ok ⟨[], name⟩

/-- The uuid crate reads the text it writes (it reads other texts too, which the code does not write). -/
def readUuid (s : Text) : Option Nat :=
  match EdnParse.uuid (['#', 'u', 'u', 'i', 'd', ' ', '"'] ++ (s ++ ['"'])) with
  | .ok (.uuid u) [] => some u
  | _ => none

/-- chrono reads the text of an instant.  Simplified: only years of four digits. -/
def readInstant (s : Text) : Option DateTime :=
  match EdnParse.stamp s with
  | some (some t, []) => some t
  | _ => none

/-- core-traits/lib.rs:406-417.  An instant is written as chrono's `Debug` does, which for UTC is RFC 3339. -/
def encodeValue : TypedValue → Json
  | .ref e => .obj [("Ref".toList, .int e)]
  | .boolean b => .obj [("Boolean".toList, .bool b)]
  | .long n => .obj [("Long".toList, .int n)]
  | .double d => .obj [("Double".toList, encodeFloat (.finite d))]
  | .instant us => .obj [("Instant".toList, .str (escape (DateTime.rfc3339 ⟨us / 1000000, us % 1000000 * 1000⟩)))]
  | .string s => .obj [("String".toList, .str (escape s))]
  | .keyword k => .obj [("Keyword".toList, encodeKeyword k)]
  | .uuid u => .obj [("Uuid".toList, .str (escape (uuidText u)))]

/-- core-traits/lib.rs:406-417 -/
def decodeValue : Json → Res TypedValue
  | .obj [(k, j)] => match unescape k with
    | none => .err .other
    | some k =>
      if k = "Ref".toList then (decodeInt j).bind fun n => .ok (.ref n)
      else if k = "Boolean".toList then (decodeBool j).bind fun b => .ok (.boolean b)
      else if k = "Long".toList then (decodeInt j).bind fun n => .ok (.long n)
      else if k = "Double".toList then (decodeFloat j).bind fun d => .ok (.double d)
      else if k = "Instant".toList then (decodeString j).bind fun s => match readInstant s with
        | some t => .ok (.instant t.toMicros)
        | none => .err .other
      else if k = "String".toList then (decodeString j).bind fun s => .ok (.string s)
      else if k = "Keyword".toList then (decodeKeyword j).bind fun k => .ok (.keyword k)
      else if k = "Uuid".toList then (decodeString j).bind fun s => match readUuid s with
        | some u => .ok (.uuid u)
        | none => .err .other
      else .err .other
  | _ => .err .other

/-! ### Chunks -/

/-- db/src/types.rs:29-41; `allow_excision` is a constant of each partition (db/src/bootstrap.rs:113-131) and not in the model. -/
def encodePartition (excise : Bool) (p : Partition) : Json :=
  .obj [("start".toList, .int p.start), ("end".toList, .int p.fin), ("allow_excision".toList, .bool excise),
    ("next_entid_to_allocate".toList, .int p.next)]

/-- db/src/types.rs:29-41 -/
def decodePartition (j : Json) : Res Partition :=
  (j.need 4 0 "start".toList).bind fun a => (decodeInt a).bind fun a =>
  (j.need 4 1 "end".toList).bind fun b => (decodeInt b).bind fun b =>
  (j.need 4 2 "allow_excision".toList).bind fun x => (decodeBool x).bind fun _ =>
  (j.need 4 3 "next_entid_to_allocate".toList).bind fun c => (decodeInt c).bind fun c => .ok ⟨a, b, c⟩

/-- db/src/types.rs:90-91: a `BTreeMap`, in the order of the names. -/
def encodeParts (p : Parts) : Json :=
  .obj [(":db.part/db".toList, encodePartition false p.db), (":db.part/tx".toList, encodePartition false p.tx),
    (":db.part/user".toList, encodePartition true p.user)]

/-- Simplified: the map must have the three partitions, once each. -/
def decodeParts (j : Json) : Res Parts :=
  match j with
  | .obj _ =>
    (j.need 3 0 ":db.part/db".toList).bind fun a => (decodePartition a).bind fun a =>
    (j.need 3 1 ":db.part/tx".toList).bind fun b => (decodePartition b).bind fun b =>
    (j.need 3 2 ":db.part/user".toList).bind fun c => (decodePartition c).bind fun c => .ok ⟨a, c, b⟩
  | _ => .err .other

/-- `Option<PartitionMap>` (tolstoy/src/types.rs:71-82). -/
def encodeOptParts : Option Parts → Json
  | none => .null
  | some m => encodeParts m

/-- types.rs:71-82, remote_client.rs:281-287 `put_chunk` -/
def encodePart (p : TxPart) : Json :=
  .obj [("partitions".toList, encodeOptParts p.partitions),
    ("e".toList, .int p.e), ("a".toList, .int p.a), ("v".toList, encodeValue p.v), ("tx".toList, .int p.tx),
    ("added".toList, .bool p.added)]

/-- types.rs:71-82, remote_client.rs:186-211 `get_chunk` -/
def decodePart (j : Json) : Res TxPart :=
  (j.field 6 0 "partitions".toList).bind fun m =>
  (optional decodeParts m).bind fun m =>
  (j.need 6 1 "e".toList).bind fun e => (decodeInt e).bind fun e =>
  (j.need 6 2 "a".toList).bind fun a => (decodeInt a).bind fun a =>
  (j.need 6 3 "v".toList).bind fun v => (decodeValue v).bind fun v =>
  (j.need 6 4 "tx".toList).bind fun tx => (decodeInt tx).bind fun tx =>
  (j.need 6 5 "added".toList).bind fun b => (decodeBool b).bind fun b => .ok ⟨m, e, a, v, tx, b⟩

/-! ### Downloading -/

/-- remote_client.rs:186-211 `get_chunk`, by way of the JSON. -/
def chunk (r : Sync.Remote) (id : Nat) : Res TxPart :=
  match r.chunks.find? fun c => decide (c.1 = id) with
  | some c => decodePart (encodePart c.2)
  | none => .err .other

/-- remote_client.rs:243-246: the chunks of a transaction. -/
def parts (r : Sync.Remote) : List Nat → Res (List TxPart)
  | [] => .ok []
  | c :: cs => (chunk r c).bind fun d => (parts r cs).bind fun ds => .ok (d :: ds)

/-- remote_client.rs:237-254: the transactions, one after the other. -/
def download (r : Sync.Remote) : List Sync.RemoteTx → Res (List Sync.Tx)
  | [] => .ok []
  | x :: xs => (parts r x.chunks).bind fun ds => (download r xs).bind fun l => .ok (⟨x.uuid, ds⟩ :: l)

/-- remote_client.rs:232-257 `transactions_after` -/
def after (r : Sync.Remote) (uuid : Nat) : Res (List Sync.Tx) :=
  if uuid = Sync.nil then download r r.txs
  else download r (r.txs.dropWhile fun x => decide (x.uuid ≠ uuid)).tail

end Mentat.Wire
