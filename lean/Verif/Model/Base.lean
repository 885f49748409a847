/-
Shared base of the model: outcomes, finite maps, value types and typed values.
-/
namespace Mentat

/-- `type Entid = i64` (core-traits/lib.rs).  Modelled as an unbounded integer. -/
notation "Entid" => Int

/-- Rust `String`s are modelled as lists of characters. -/
abbrev Text := List Char

/-- Kinds of errors the modelled code returns (db-traits/errors.rs `DbErrorKind`,
query-algebrizer-traits/errors.rs ...), reduced to what the properties distinguish. -/
inductive Err where
  | typeDisagreements
  | cardinalityConflicts
  | conflictingUpserts
  | unrecognizedEntid
  | unrecognizedIdent
  | unallocatedEntid
  | badSchemaAssertion
  | schemaAlterationFailed
  | notYetImplemented
  | badValuePair
  | badSqlValuePair
  | inputError
  | sqlConstraint
  | timelinesInvalidRange
  | timelinesMoveToNonEmpty
  | unboundVariables
  | invalidLimit
  | unboundVariable
  | other
  deriving DecidableEq, Repr

/-- Outcome of a modelled Rust function: `Ok`, `Err`, or a panic
(`assert!`, `unreachable!`, `unimplemented!`, index out of bounds, arithmetic underflow). -/
inductive Res (α : Type u) where
  | ok (a : α)
  | err (e : Err)
  | panic
  deriving DecidableEq, Repr

namespace Res

/-- Rust's `?`: the first error or panic is the result. -/
def bind {α : Type u} {β : Type v} : Res α → (α → Res β) → Res β
  | ok a, f => f a
  | err e, _ => err e
  | panic, _ => panic

instance : Monad Res where
  pure := ok
  bind := bind

@[simp] theorem pure_eq {α : Type u} (a : α) : (pure a : Res α) = ok a := rfl
@[simp] theorem ok_bind {α β : Type u} (a : α) (f : α → Res β) : (ok a >>= f) = f a := rfl
@[simp] theorem err_bind {α β : Type u} (e : Err) (f : α → Res β) : (err e >>= f) = err e := rfl
@[simp] theorem panic_bind {α β : Type u} (f : α → Res β) : ((panic : Res α) >>= f) = panic := rfl

theorem bind_eq_ok {α β : Type u} {x : Res α} {f : α → Res β} {b : β} :
    (x >>= f) = ok b ↔ ∃ a, x = ok a ∧ f a = ok b := by
  cases x <;> simp

/-- Rust `assert!(c)`. -/
def assert (c : Prop) [Decidable c] : Res Unit := if c then ok () else panic

/-- `bail!(e)` unless `c`. -/
def require (c : Prop) [Decidable c] (e : Err) : Res Unit := if c then ok () else err e

@[simp] theorem assert_eq_ok {c : Prop} [Decidable c] {u : Unit} : assert c = ok u ↔ c := by
  unfold assert; split <;> simp_all

@[simp] theorem require_eq_ok {c : Prop} [Decidable c] {e : Err} {u : Unit} :
    require c e = ok u ↔ c := by
  unfold require; split <;> simp_all

end Res

/-! ### Finite maps

`BTreeMap`/`HashMap` as association lists.  `insert` replaces in place or appends; the map laws
are proved below.  Where the code depends on iteration order the model sorts explicitly. -/

/-- `BTreeMap` and `HashMap`. -/
abbrev AMap (K : Type u) (V : Type v) := List (K × V)

namespace AMap
variable {K : Type u} {V : Type v} [DecidableEq K]

/-- `get` -/
def get : AMap K V → K → Option V
  | [], _ => none
  | (k', v) :: r, k => if k' = k then some v else get r k

/-- `insert` -/
def insert : AMap K V → K → V → AMap K V
  | [], k, v => [(k, v)]
  | (k', v') :: r, k, v => if k' = k then (k, v) :: r else (k', v') :: insert r k v

/-- `remove` -/
def erase (m : AMap K V) (k : K) : AMap K V := m.filter (fun p => decide (p.1 ≠ k))

/-- `keys` -/
def keys (m : AMap K V) : List K := m.map (·.1)

/-- `contains_key` -/
def contains (m : AMap K V) (k : K) : Bool := (get m k).isSome

@[simp] theorem get_nil (k : K) : get ([] : AMap K V) k = none := rfl

@[simp] theorem get_cons (k' : K) (v : V) (r : AMap K V) (k : K) :
    get ((k', v) :: r) k = if k' = k then some v else get r k := rfl

@[simp] theorem get_insert_self (m : AMap K V) (k : K) (v : V) : get (insert m k v) k = some v := by
  induction m with
  | nil => simp [insert]
  | cons p r ih =>
    obtain ⟨k', v'⟩ := p
    unfold insert; split <;> simp_all

theorem get_insert_ne (m : AMap K V) {k k' : K} (v : V) (h : k ≠ k') :
    get (insert m k v) k' = get m k' := by
  induction m with
  | nil => simp [insert, h]
  | cons p r ih =>
    obtain ⟨k2, v2⟩ := p
    unfold insert; split
    · rename_i h2; subst h2; simp [h]
    · simp [ih]

theorem get_insert (m : AMap K V) (k k' : K) (v : V) :
    get (insert m k v) k' = if k = k' then some v else get m k' := by
  split
  · rename_i h; subst h; simp
  · rename_i h; exact get_insert_ne m v h

theorem get_erase (m : AMap K V) (k k' : K) :
    get (erase m k) k' = if k = k' then none else get m k' := by
  induction m with
  | nil => simp [erase]
  | cons p r ih =>
    obtain ⟨k2, v2⟩ := p
    unfold erase at ih ⊢
    simp only [List.filter_cons]
    by_cases h2 : k2 = k
    · subst h2; simp only [ne_eq, not_true_eq_false, decide_false, Bool.false_eq_true, if_false, ih]
      by_cases h3 : k2 = k' <;> simp [h3]
    · simp only [ne_eq, h2, not_false_eq_true, decide_true, if_true, get_cons, ih]
      by_cases h3 : k2 = k'
      · subst h3
        simp [Ne.symm h2]
      · simp [h3]

@[simp] theorem get_erase_self (m : AMap K V) (k : K) : get (erase m k) k = none := by
  simp [get_erase]

theorem get_some_mem {m : AMap K V} {k : K} {v : V} (h : get m k = some v) : (k, v) ∈ m := by
  induction m with
  | nil => simp at h
  | cons p r ih =>
    obtain ⟨k', v'⟩ := p
    simp only [get_cons] at h
    split at h
    · rename_i hk; subst hk; simp at h; subst h; exact List.mem_cons_self
    · exact List.mem_cons_of_mem _ (ih h)

theorem get_isSome_iff {m : AMap K V} {k : K} : (get m k).isSome ↔ k ∈ keys m := by
  induction m with
  | nil => simp [keys]
  | cons p r ih =>
    obtain ⟨k', v'⟩ := p
    simp only [get_cons, keys, List.map_cons, List.mem_cons]
    by_cases hk : k' = k
    · simp [hk]
    · simp only [hk, if_false, ih, keys]
      constructor
      · intro h; exact Or.inr h
      · rintro (h | h)
        · exact absurd h.symm hk
        · exact h

theorem get_eq_none_iff {m : AMap K V} {k : K} : get m k = none ↔ k ∉ keys m := by
  rw [← get_isSome_iff]; cases get m k <;> simp

/-- no repeated keys -/
def WF (m : AMap K V) : Prop := (keys m).Nodup

theorem mem_get {m : AMap K V} (h : WF m) {k : K} {v : V} (hm : (k, v) ∈ m) : get m k = some v := by
  induction m with
  | nil => simp at hm
  | cons p r ih =>
    obtain ⟨k', v'⟩ := p
    simp only [WF, keys, List.map_cons, List.nodup_cons] at h
    simp only [List.mem_cons, Prod.mk.injEq] at hm
    rcases hm with ⟨rfl, rfl⟩ | hm
    · simp
    · have : k' ≠ k := by
        rintro rfl; exact h.1 (List.mem_map_of_mem (f := (·.1)) hm)
      simp only [get_cons, this, if_false]
      exact ih h.2 hm

theorem keys_insert (m : AMap K V) (k : K) (v : V) :
    keys (insert m k v) = if k ∈ keys m then keys m else keys m ++ [k] := by
  induction m with
  | nil => simp [insert, keys]
  | cons p r ih =>
    obtain ⟨k', v'⟩ := p
    unfold insert
    by_cases hk : k' = k
    · subst hk; simp [keys]
    · have hk' : ¬ k = k' := fun h => hk h.symm
      simp only [hk, if_false]
      simp only [keys, List.map_cons] at ih ⊢
      rw [ih]
      by_cases hm : k ∈ List.map (·.1) r
      · simp [hm]
      · simp [hm, hk']

theorem wf_insert {m : AMap K V} (h : WF m) (k : K) (v : V) : WF (insert m k v) := by
  unfold WF at *
  rw [keys_insert]
  split
  · exact h
  · rename_i hk
    rw [List.nodup_append]
    refine ⟨h, by simp, ?_⟩
    intro a ha b hb
    simp at hb; subst hb
    rintro rfl; exact hk ha

theorem wf_erase {m : AMap K V} (h : WF m) (k : K) : WF (erase m k) := by
  unfold WF keys erase at *
  exact List.Nodup.sublist (List.Sublist.map _ List.filter_sublist) h

omit [DecidableEq K] in
theorem wf_nil : WF ([] : AMap K V) := by simp [WF, keys]

end AMap

/-- Insertion sort used where the code iterates a `BTreeMap` keyed by entid. -/
def insertSortedBy {α : Type u} (key : α → Int) (x : α) : List α → List α
  | [] => [x]
  | y :: r => if key x ≤ key y then x :: y :: r else y :: insertSortedBy key x r

/-- Iteration in the order of the keys. -/
def sortBy {α : Type u} (key : α → Int) : List α → List α
  | [] => []
  | x :: r => insertSortedBy key x (sortBy key r)

theorem mem_insertSortedBy {α : Type u} (key : α → Int) (x y : α) (l : List α) :
    y ∈ insertSortedBy key x l ↔ y = x ∨ y ∈ l := by
  induction l with
  | nil => simp [insertSortedBy]
  | cons z r ih =>
    unfold insertSortedBy; split
    · simp
    · simp only [List.mem_cons, ih]
      constructor
      · rintro (h | h | h) <;> simp [h]
      · rintro (h | h | h) <;> simp [h]

@[simp] theorem mem_sortBy {α : Type u} (key : α → Int) (y : α) (l : List α) :
    y ∈ sortBy key l ↔ y ∈ l := by
  induction l with
  | nil => simp [sortBy]
  | cons z r ih => simp [sortBy, mem_insertSortedBy, ih]

/-! ### Value types and typed values -/

/-- core-traits/lib.rs `enum ValueType` (order of declaration as in the code). -/
inductive ValueType where
  | ref | boolean | instant | long | double | string | keyword | uuid
  deriving DecidableEq, Repr

namespace ValueType
/-- core-traits/lib.rs:286-293 `all_enums` -/
def all : List ValueType := [ref, boolean, instant, long, double, string, keyword, uuid]
theorem mem_all (t : ValueType) : t ∈ all := by cases t <;> decide
end ValueType

/-- A keyword `:ns/name` (edn/src/symbols.rs `Keyword`, edn/src/namespaceable_name.rs); an empty
namespace stands for a keyword without one.  `Keyword.nname` is the code's representation. -/
structure Keyword where
  ns : Text
  name : Text
  deriving DecidableEq, Repr

/-- core-traits/lib.rs `enum TypedValue`.
* `double d` is the finite double `d * 2^-1074` (every finite double is such a multiple;
  NaN, infinities and the sign of zero are not modelled);
* `instant` is in microseconds (the precision `FromMicros`/`ToMicros` keep);
* `uuid` is its 128-bit number. -/
inductive TypedValue where
  | ref (e : Entid)
  | boolean (b : Bool)
  | long (n : Int)
  | double (d : Int)
  | instant (us : Int)
  | string (s : Text)
  | keyword (k : Keyword)
  | uuid (u : Nat)
  deriving DecidableEq, Repr

/-- core-traits/lib.rs `TypedValue::value_type`. -/
def TypedValue.valueType : TypedValue → ValueType
  | ref _ => .ref
  | boolean _ => .boolean
  | long _ => .long
  | double _ => .double
  | instant _ => .instant
  | string _ => .string
  | keyword _ => .keyword
  | uuid _ => .uuid

/-- core-traits/lib.rs `mod attribute { enum Unique }`. -/
inductive Unique where
  | value | identity
  deriving DecidableEq, Repr

/-- core-traits/lib.rs `struct Attribute`; `Default` is ref / non-multival / all false. -/
structure Attribute where
  valueType : ValueType := .ref
  multival : Bool := false
  unique : Option Unique := none
  index : Bool := false
  fulltext : Bool := false
  component : Bool := false
  noHistory : Bool := false
  deriving DecidableEq, Repr

/-- core/src/lib.rs `struct Schema` (`component_attributes` is derived from `attribute_map`). -/
structure Schema where
  entidMap : AMap Entid Keyword := []
  identMap : AMap Keyword Entid := []
  attributeMap : AMap Entid Attribute := []
  deriving DecidableEq, Repr

/-- core/src/lib.rs `attribute_for_entid`. -/
def Schema.attr (s : Schema) (a : Entid) : Option Attribute := AMap.get s.attributeMap a

/-- db/src/schema.rs:281-284 `require_attribute_for_entid`. -/
def Schema.requireAttr (s : Schema) (a : Entid) : Res Attribute :=
  match s.attr a with
  | some x => .ok x
  | none => .err .unrecognizedEntid

/-- db/src/schema.rs:276-279 `require_entid`. -/
def Schema.requireEntid (s : Schema) (k : Keyword) : Res Entid :=
  match AMap.get s.identMap k with
  | some e => .ok e
  | none => .err .unrecognizedIdent

/-- `OpType` (edn/src/entities.rs). -/
inductive Op where
  | add | retract
  deriving DecidableEq, Repr

end Mentat
