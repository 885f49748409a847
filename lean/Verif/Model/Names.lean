import Verif.Model.Base
/-
Keywords and symbols: edn/src/namespaceable_name.rs, edn/src/symbols.rs, db/src/lib.rs:88-99.
-/
namespace Mentat

/-- namespaceable_name.rs:22-44 `NamespaceableName`.  Simplification: `boundary` counts characters,
not bytes (the code keeps it on a character boundary). -/
structure NName where
  components : Text
  boundary : Nat
  deriving DecidableEq, Repr

namespace NName

/-- namespaceable_name.rs:47-59 `plain` -/
def plain (n : Text) : Res NName :=
  if n = [] then .panic else .ok ⟨n, 0⟩

/-- namespaceable_name.rs:61-91 `namespaced` -/
def namespaced (ns n : Text) : Res NName :=
  if n = [] then .panic
  else if ns = [] then .panic
  else .ok ⟨ns ++ '/' :: n, ns.length⟩

/-- namespaceable_name.rs:93-103 `new` -/
def new (ns : Option Text) (n : Text) : Res NName :=
  match ns with
  | some ns => namespaced ns n
  | none => plain n

/-- namespaceable_name.rs:105 `is_namespaced` -/
def isNamespaced (k : NName) : Bool := decide (0 < k.boundary)

/-- namespaceable_name.rs:129-135 `namespace` -/
def ns (k : NName) : Option Text :=
  if 0 < k.boundary then some (k.components.take k.boundary) else none

/-- namespaceable_name.rs:137-144 `name` -/
def name (k : NName) : Text :=
  if k.boundary = 0 then k.components else k.components.drop (k.boundary + 1)

/-- namespaceable_name.rs:146-156 `components` -/
def parts (k : NName) : Text × Text :=
  if 0 < k.boundary then (k.components.take k.boundary, k.components.drop (k.boundary + 1))
  else ([], k.components)

/-- namespaceable_name.rs:109-112 `is_backward` -/
def isBackward (k : NName) : Bool := k.name.head? = some '_'

/-- namespaceable_name.rs:114-117 `is_forward` -/
def isForward (k : NName) : Bool := !k.isBackward

/-- namespaceable_name.rs:119-127 `to_reversed` -/
def toReversed (k : NName) : Res NName :=
  if k.name.head? = some '_' then new k.ns (k.name.drop 1)
  else new k.ns ('_' :: k.name)

/-- symbols.rs:263-269 `unreversed` -/
def unreversed (k : NName) : Res (Option NName) :=
  if k.isBackward then
    match k.toReversed with
    | .ok k' => .ok (some k')
    | .err e => .err e
    | .panic => .panic
  else .ok none

/-- namespaceable_name.rs:193-197 `Display` -/
def display (k : NName) : Text := k.components

/-- symbols.rs:305-322 `Display for Keyword` -/
def displayKeyword (k : NName) : Text := ':' :: k.display

end NName

/-- Rust `str::split` on a set of separator characters. -/
def splitChars (p : Char → Bool) : Text → List Text
  | [] => [[]]
  | c :: r =>
    if p c then [] :: splitChars p r
    else match splitChars p r with
      | s :: rest => (c :: s) :: rest
      | [] => [[c]]

/-- db/src/lib.rs:88-99 `to_namespaced_keyword` -/
def toNamespacedKeyword (s : Text) : Res NName :=
  match splitChars (fun c => c = ':' || c = '/') s with
  | [[], ns, name] => NName.namespaced ns name
  | _ => .err .notYetImplemented

/-- The keyword of a typed value as the code represents it; an empty namespace stands for none. -/
def Keyword.nname (k : Keyword) : NName :=
  if k.ns = [] then ⟨k.name, 0⟩ else ⟨k.ns ++ '/' :: k.name, k.ns.length⟩

end Mentat
