import Verif.Model.Builder
import Verif.Model.Lookup
import Verif.Model.QueryBuilder
/-
The foreign interface: ffi/src/lib.rs and ffi/src/utils.rs, with the conversions of core-traits/lib.rs
that it uses.

What is modelled is the conversion of texts, keywords and values on the way in and out, and the access
to the parts of a result.  A pointer that may be null is an `Option`; that a pointer passed in is not
dangling, and who frees what, is not modelled.
-/
namespace Mentat.Ffi

open CC

/-! ### Texts -/

/-- A `char *`: null, bytes that are not UTF-8, or the text of the bytes up to the first NUL. -/
inductive CString where
  | null
  | notUtf8
  | text (t : Text)
  deriving DecidableEq, Repr

/-- The character that ends a C string. -/
def nul : Char := Char.ofNat 0

/-- utils.rs:20-24 `c_char_to_string` -/
def fromC : CString → Res Text
  | .null => .panic
  | .notUtf8 => .ok []
  | .text t => .ok (t.takeWhile (· ≠ nul))

/-- utils.rs:26-31 `string_to_c_char`: `CString::new` refuses a text with a NUL. -/
def toC (t : Text) : Res CString := if nul ∈ t then .panic else .ok (.text t)

/-- utils.rs:33-38 `kw_from_string`: `parts[1]` is out of bounds if there is no slash. -/
def kwFromString (t : Text) : Res Keyword :=
  match splitChars (· = '/') (t.dropWhile (· = ':')) with
  | ns :: name :: _ => (NName.namespaced ns name).bind fun n => .ok n.keyword
  | _ => .panic

/-! ### Values given -/

/-- The values a caller can give, each with the functions for its type. -/
inductive CVal where
  | string (s : CString)
  | long (n : Int)
  | ref (e : Entid)
  | keyword (s : CString)
  | boolean (b : Bool)
  | double (d : Int)
  | timestamp (n : Int)
  /-- a pointer to 16 bytes -/
  | uuid (bytes : Option (List Nat))
  deriving DecidableEq, Repr

/-- How `in_progress_builder_add_*` (lib.rs:424-622), `in_progress_builder_retract_*` (636-833),
`entity_builder_add_*` and `_retract_*` (888-1281) and `query_builder_bind_*` (1457-1600) make a typed
value of what is given; core-traits/lib.rs:471-473 `TypedValue::instant`. -/
def CVal.typed : CVal → Res TypedValue
  | .string s => (fromC s).bind fun t => .ok (.string t)
  | .long n => .ok (.long n)
  | .ref e => .ok (.ref e)
  | .keyword s => (fromC s).bind fun t => (kwFromString t).bind fun k => .ok (.keyword k)
  | .boolean b => .ok (.boolean b)
  | .double d => .ok (.double d)
  | .timestamp n => .ok (.instant (DateTime.fromMicros n).toMicros)
  | .uuid none => .panic
  | .uuid (some b) => .ok (.uuid (ofBytes b))

/-- lib.rs:424-622: `in_progress_builder_add_*` -/
def builderAdd (b : TermBuilder) (e : Entid) (kw : CString) (v : CVal) : Res TermBuilder :=
  (fromC kw).bind fun t => (kwFromString t).bind fun k => v.typed.bind fun v =>
  .ok (b.add (.entid (.entid e)) (.ident k) (.atom v))

/-- lib.rs:636-833: `in_progress_builder_retract_*` -/
def builderRetract (b : TermBuilder) (e : Entid) (kw : CString) (v : CVal) : Res TermBuilder :=
  (fromC kw).bind fun t => (kwFromString t).bind fun k => v.typed.bind fun v =>
  .ok (b.retract (.entid (.entid e)) (.ident k) (.atom v))

/-- lib.rs:1457-1600: `query_builder_bind_*`, except `_ref_kw` -/
def queryBind (q : QueryBuilder) (var : CString) (v : CVal) : Res QueryBuilder :=
  (fromC var).bind fun x => v.typed.bind fun v => q.bindValue x v

/-! ### Values taken -/

/-- core-traits/lib.rs `Binding`: a scalar, or a vector or map, which no conversion takes. -/
inductive Cell where
  | scalar (v : TypedValue)
  | structured
  deriving DecidableEq, Repr

/-- lib.rs:1691-1696 `unwrap_conversion` -/
def unwrapConversion {α : Type} : Option α → Res α
  | some x => .ok x
  | none => .panic

/-- lib.rs:1706-1710 `typed_value_into_long` -/
def intoLong (c : Cell) : Res Int :=
  unwrapConversion (match c with
  | .scalar (.long n) => some n
  | _ => none)

/-- lib.rs:1722-1727 `typed_value_into_entid` -/
def intoEntid (c : Cell) : Res Entid :=
  unwrapConversion (match c with
  | .scalar (.ref e) => some e
  | _ => none)

/-- lib.rs:1737-1741 `typed_value_into_kw`, core-traits/lib.rs:554-568: the keyword as it is printed. -/
def intoKw (c : Cell) : Res CString :=
  match c with
  | .scalar (.keyword k) => toC k.nname.displayKeyword
  | _ => .panic

/-- lib.rs:1753-1761 `typed_value_into_boolean` -/
def intoBoolean (c : Cell) : Res Int :=
  (unwrapConversion (match c with
  | .scalar (.boolean b) => some b
  | _ => none)).bind fun b => .ok (if b then 1 else 0)

/-- lib.rs:1771-1775 `typed_value_into_double` -/
def intoDouble (c : Cell) : Res Int :=
  unwrapConversion (match c with
  | .scalar (.double d) => some d
  | _ => none)

/-- lib.rs:1785-1789 `typed_value_into_timestamp`, core-traits/lib.rs:919-924: chrono's `timestamp`, the
whole seconds. -/
def intoTimestamp (c : Cell) : Res Int :=
  unwrapConversion (match c with
  | .scalar (.instant us) => some (us / 1000000)
  | _ => none)

/-- lib.rs:1802-1806 `typed_value_into_string`, core-traits/lib.rs:538-552 -/
def intoString (c : Cell) : Res CString :=
  match c with
  | .scalar (.string t) => toC t
  | _ => .panic

/-- lib.rs:1818-1823 `typed_value_into_uuid` -/
def intoUuid (c : Cell) : Res (List Nat) :=
  unwrapConversion (match c with
  | .scalar (.uuid u) => some (toBytes 16 u)
  | _ => none)

/-- lib.rs:1827-1832 `typed_value_value_type` -/
def valueTypeOf (c : Cell) : Res ValueType :=
  match c with
  | .scalar v => .ok v.valueType
  | .structured => .panic

/-- A caller that takes a value as one of type `t`, with the function for it. -/
def takeAs (t : ValueType) (c : Cell) : Res CVal :=
  match t with
  | .long => (intoLong c).bind fun n => .ok (.long n)
  | .ref => (intoEntid c).bind fun n => .ok (.ref n)
  | .keyword => (intoKw c).bind fun s => .ok (.keyword s)
  | .boolean => (intoBoolean c).bind fun n => .ok (.boolean (n != 0))
  | .double => (intoDouble c).bind fun d => .ok (.double d)
  | .instant => (intoTimestamp c).bind fun n => .ok (.timestamp n)
  | .string => (intoString c).bind fun s => .ok (.string s)
  | .uuid => (intoUuid c).bind fun b => .ok (.uuid (some b))

/-! ### Errors -/

/-- utils.rs:136-158 `translate_opt_result`: the pointer returned and the message of the `ExternError`;
`message` prints an error. -/
def translateOpt {α : Type} (message : Err → Text) : Res (Option α) → Res (Option α × Option CString)
  | .ok o => .ok (o, none)
  | .err e => (toC (message e)).bind fun m => .ok (none, some m)
  | .panic => .panic

/-- lib.rs:2119-2132 `store_value_for_attribute` -/
def storeValueForAttribute (message : Err → Text) (fl : Floats) (k : Known) (db : Tables) (e : Entid) (attr : CString) :
    Res (Option Cell × Option CString) :=
  (fromC attr).bind fun t => (kwFromString t).bind fun a =>
  translateOpt message ((lookupValueFor fl k db e a).bind fun o => .ok (o.map .scalar))

/-! ### Parts of results -/

/-- `as usize` of a `c_int`, and arithmetic on 64 bits. -/
def usize (n : Int) : Nat := (n % 2 ^ 64).toNat

/-- lib.rs:1843-1852 `row_at_index` with relresult.rs:61-69 `row`, as compiled for release: arithmetic
wraps around.  (A debug build panics instead of wrapping.)  A slice that begins after its end is a panic. -/
def rowAtIndex {α : Type} (r : RelResult α) (i : Int) : Res (Option (List α)) :=
  let stop := r.width * ((usize i + 1) % 2 ^ 64) % 2 ^ 64
  if stop > r.values.length then .ok none
  else
    let start := r.width * usize i % 2 ^ 64
    if start > stop then .panic else .ok (some ((r.values.drop start).take (stop - start)))

/-- lib.rs:1862-1870 `typed_value_result_set_into_iter`: `slice::Chunks`, the width and what is left. -/
def resultSetIter {α : Type} (r : RelResult α) : Res (Nat × List α) :=
  if r.width = 0 then .panic else .ok (r.width, r.values)

/-- lib.rs:1880-1889 `typed_value_result_set_iter_next` -/
def resultSetNext {α : Type} : Nat × List α → Option (List α) × (Nat × List α)
  | (w, []) => (none, (w, []))
  | (w, x :: l) => (some ((x :: l).take w), (w, (x :: l).drop w))

/-- lib.rs:1931-1943 `value_at_index` -/
def valueAtIndex {α : Type} (l : List α) (i : Int) : Res (Option α) :=
  if i < 0 ∨ usize i > l.length then .ok none
  else match l[usize i]? with
    | some x => .ok (some x)
    | none => .panic

/-- lib.rs:1953-2105 `value_at_index_into_*`, for a value taken as type `t` -/
def valueAtIndexAs (t : ValueType) (l : List Cell) (i : Int) : Res CVal :=
  match l[usize i]? with
  | some c => takeAs t c
  | none => .panic

end Mentat.Ffi
