import Verif.Model.Edn
/-
Pretty printing of EDN values: edn/src/pretty_print.rs.

The documents and their layout are those of the `pretty` crate (version 0.10, edn/Cargo.toml:17), which is not in the
repository: a group is laid out in one line if that fits with what follows up to the next line end, else with a line end at
each of its lines.  The crate keeps the documents to come on a stack; here they are the argument `k`, which says whether they
fit in the columns that remain.
-/
namespace Mentat

/-- A document of the `pretty` crate. -/
inductive Doc where
  | nil
  | text (s : Text)
  | line
  | append (a b : Doc)
  | nest (n : Nat) (d : Doc)
  | group (d : Doc)

/-- `String::len`: the length in UTF-8. -/
def utf8Len (s : Text) : Nat := (s.map Char.utf8Size).sum

namespace Doc

/-- Whether the document and what follows it, up to the next line end, fit in `rem` columns. -/
def fits (flat : Bool) : Doc → (Int → Bool) → Int → Bool
  | nil, k, rem => k rem
  | text s, k, rem => 0 ≤ rem && k (rem - utf8Len s)
  | line, k, rem => 0 ≤ rem && (!flat || k (rem - 1))
  | append a b, k, rem => a.fits flat (b.fits flat k) rem
  | nest _ d, k, rem => d.fits flat k rem
  | group d, k, rem => d.fits flat k rem

/-- The text, and the column where it ends. -/
def render (width : Nat) : Doc → Bool → Nat → (Int → Bool) → Nat → Text × Nat
  | nil, _, _, _, pos => ([], pos)
  | text s, _, _, _, pos => (s, pos + utf8Len s)
  | line, flat, ind, _, pos => if flat then ([' '], pos + 1) else ('\n' :: List.replicate ind ' ', ind)
  | append a b, flat, ind, k, pos =>
    let r := a.render width flat ind (b.fits flat k) pos
    let q := b.render width flat ind k r.2
    (r.1 ++ q.1, q.2)
  | nest n d, flat, ind, k, pos => d.render width flat (ind + n) k pos
  | group d, flat, ind, k, pos => d.render width (flat || d.fits true k ((width : Int) - pos)) ind k pos

/-- `intersperse(line)` and `concat` -/
def sep : List Doc → Doc
  | [] => nil
  | [d] => d
  | d :: ds => append d (append line (sep ds))

/-- pretty_print.rs:38-67 `bracket` -/
def bracket (opening : Text) (ds : List Doc) (closing : Text) : Doc :=
  group (append (append (text opening) (nest (utf8Len opening) (sep ds))) (text closing))

/-- pretty_print.rs:84, the documents of keys and values in turn. -/
def entries : List Doc → List Doc
  | k :: v :: ds => group (append (append k line) v) :: entries ds
  | _ => []

end Doc

namespace Edn
open Doc

mutual
/-- pretty_print.rs:69-106 `as_doc` -/
def asDoc : Edn → Doc
  | vector l => bracket ['['] (asDocs l) [']']
  | list l => bracket ['('] (asDocs l) [')']
  | set l => bracket ['#', '{'] (asDocs l) ['}']
  | map l => group (append (append (.text ['{']) (nest 1 (sep (entries (asDocs l)).reverse))) (.text ['}']))
  | nsSymbol k => append (append (.text k.parts.1) (.text ['/'])) (.text k.parts.2)
  | text s => append (append (.text ['"']) (.text s)) (.text ['"'])
  | uuid u => append (append (.text ['#', 'u', 'u', 'i', 'd', ' ', '"']) (.text (uuidText u))) (.text ['"'])
  | instant t => append (append (.text ['#', 'i', 'n', 's', 't', ' ', '"']) (.text t.rfc3339)) (.text ['"'])
  | v => .text (print v)
/-- pretty_print.rs:69-106 `as_doc`, of each element. -/
def asDocs : List Edn → List Doc
  | [] => []
  | v :: l => asDoc v :: asDocs l
end

/-- pretty_print.rs:22-27 `to_pretty` -/
def pretty (width : Nat) (v : Edn) : Text := ((asDoc v).render width false 0 (fun rem => decide (0 ≤ rem)) 0).1

end Edn
end Mentat
