import Verif.Model.QueryAst
/-
Conjoining clauses: query-algebrizer/src/clauses/mod.rs, clauses/pattern.rs, core-traits/value_type_set.rs,
core/src/sql_types.rs, and the translation of constraints in query-projector/src/translate.rs.

The reason a query is known to be empty is not kept (`empty_because` is a Boolean).  Constraints are
kept in their translated form.  A panic while translating a subquery is recorded in `panics` and
reported when the whole query is translated.
-/
namespace Mentat

/-! ### Sets of types -/

/-- core-traits/value_type_set.rs:41 `ValueTypeSet` -/
abbrev TypeSet := ValueType → Bool

namespace TypeSet
/-- value_type_set.rs `into_iter`: in the order of the enumeration. -/
def list (s : TypeSet) : List ValueType := ValueType.all.filter s
/-- value_type_set.rs:50-52 `any` -/
def any : TypeSet := fun _ => true
/-- value_type_set.rs:59-63 `of_one` -/
def one (t : ValueType) : TypeSet := fun u => decide (u = t)
/-- value_type_set.rs:66-68 `of_numeric_types` -/
def numeric : TypeSet := fun t => decide (t = .long) || decide (t = .double)
/-- value_type_set.rs:104-106 `intersection` -/
def inter (s t : TypeSet) : TypeSet := fun u => s u && t u
/-- value_type_set.rs:100-102 `union` -/
def union (s t : TypeSet) : TypeSet := fun u => s u || t u
/-- value_type_set.rs:133-135 `is_empty` -/
def isEmpty (s : TypeSet) : Bool := s.list.isEmpty
/-- value_type_set.rs:137-139 `is_unit` -/
def isUnit (s : TypeSet) : Bool := s.list.length == 1
/-- value_type_set.rs:116-118 `exemplar` -/
def exemplar (s : TypeSet) : Option ValueType := s.list.head?
/-- value_type_set.rs:120-122 `is_subset` -/
def subset (s t : TypeSet) : Bool := ValueType.all.all fun u => !s u || t u
/-- value_type_set.rs:125-127 `is_disjoint` -/
def disjoint (s t : TypeSet) : Bool := (s.inter t).isEmpty
/-- value_type_set.rs:41, derived `PartialEq` -/
def eq (s t : TypeSet) : Bool := ValueType.all.all fun u => s u == t u
/-- value_type_set.rs `is_only_numeric` -/
def onlyNumeric (s : TypeSet) : Bool := s.subset numeric
/-- core/src/sql_types.rs:98-113 `unique_type_tag`, `has_unique_type_tag` -/
def uniqueTag (s : TypeSet) : Option Nat :=
  match s.list with
  | [] => none
  | t :: r => if r.all fun u => u.tag == t.tag then some t.tag else none
end TypeSet

/-! ### Translation of constraints (translate.rs:76-222) -/

/-- types.rs:260 `QualifiedAlias` -/
abbrev QA := Alias × Col

/-- core/src/sql_types.rs:40-51: the affinity to check, only for `long` and `double`. -/
def ValueType.affinity : ValueType → Option Bool
  | .long => some false
  | .double => some true
  | _ => none

/-- translate.rs:84-108 `type_constraint` -/
def typeConstraint (al : Alias) (tag : Nat) (check : Option (List Bool)) : Constraint :=
  let c := Constraint.infix .eq (.col al .tag) (.const (.integer tag))
  match check with
  | some affs => .and [c, .or (affs.map fun b => .typeCheck (.col al .v) b)]
  | none => c

/-- translate.rs:77-82 `affinity_count` -/
def affinityCount (tag : Nat) : Nat := (ValueType.all.filter fun t => t.tag == tag).length

/-- translate.rs:110-123, 188-212 `HasTypes`: the tags of the types in the order they first occur (a
`HashMap` in the code; the order does not matter in a disjunction). -/
def hasTypes (al : Alias) (ts : TypeSet) (check : Bool) : Constraint :=
  if check then
    let tags := ts.list.foldl (fun acc t => if t.tag ∈ acc then acc else acc ++ [t.tag]) []
    .or (tags.map fun tag =>
      let affs := (ts.list.filter fun t => t.tag == tag).filterMap ValueType.affinity
      typeConstraint al tag
        (if affs.isEmpty || affs.length == affinityCount tag then none else some affs))
  else .or (ts.list.map fun t => typeConstraint al t.tag none)

/-- types.rs:428-435 `has_unit_type` -/
def hasUnitType (al : Alias) (t : ValueType) : Constraint := hasTypes al (TypeSet.one t) false

/-- `Equals(qa, QueryValue::Entid)` (translate.rs:128-130) -/
def eqEntid (q : QA) (e : Entid) : Constraint := .infix .eq (.col q.1 q.2) (.const (.integer e))

/-- `Equals(qa, QueryValue::TypedValue)` (translate.rs:132-134) -/
def eqValue (q : QA) (v : TypedValue) : Constraint := .infix .eq (.col q.1 q.2) (.const v.toSql.1)

/-- `Equals(qa, QueryValue::Column)` (translate.rs:136-138) -/
def eqCol (q r : QA) : Constraint := .infix .eq (.col q.1 q.2) (.col r.1 r.2)

/-- `Equals(qa, QueryValue::PrimitiveLong)` on a value column (translate.rs:140-180) -/
def eqNumeric (al : Alias) (n : Int) : Constraint :=
  let c := Constraint.infix .eq (.col al .v) (.const (.integer n))
  if n = 0 ∨ n = 1 then
    .and [c, .infix .ne (.col al .tag) (.const (.integer ValueType.boolean.tag))]
  else c

/-! ### The structure -/

/-- core/src/cache.rs:18-43 `CachedAttributes`: the caches of a connection, or those of a transaction in
progress (db/src/cache.rs:1355-1385, 1748-1858). -/
inductive AttrCache where
  | settled (c : Caches)
  | ongoing (p : ProgCache)
  deriving DecidableEq

namespace AttrCache
/-- `is_attribute_cached_forward` (cache.rs:1795-1799 in progress) -/
def cachedForward : AttrCache → Entid → Bool
  | .settled c, a => decide (a ∈ c.forward)
  | .ongoing p, a => p.cachedForward a
/-- `is_attribute_cached_reverse` (cache.rs:1789-1793 in progress) -/
def cachedReverse : AttrCache → Entid → Bool
  | .settled c, a => decide (a ∈ c.reverse)
  | .ongoing p, a => p.cachedReverse a
/-- `get_values_for_entid` (cache.rs:1749-1765 in progress) -/
def getValues : AttrCache → Schema → Entid → Entid → Option (List TypedValue)
  | .settled c => c.getValues
  | .ongoing p => p.getValues
/-- `get_value_for_entid` (cache.rs:1767-1787 in progress) -/
def getValue : AttrCache → Schema → Entid → Entid → Option TypedValue
  | .settled c => c.getValue
  | .ongoing p => p.getValue
/-- `get_entid_for_value` (cache.rs:1842-1857 in progress) -/
def getEntid : AttrCache → Entid → TypedValue → Option Entid
  | .settled c => c.getEntid
  | .ongoing p => p.getEntid
/-- `get_entids_for_value` (cache.rs:1828-1840 in progress) -/
def getEntids : AttrCache → Entid → TypedValue → Option (List Entid)
  | .settled c => c.getEntids
  | .ongoing p => p.getEntids
end AttrCache

/-- query-algebrizer/src/lib.rs:46-49 `Known` -/
structure Known where
  schema : Schema
  cache : Option AttrCache := none

/-- clauses/mod.rs:130-178 `ConjoiningClauses`.  The alias counter is shared by nested clauses in the
code; here it is threaded through them. -/
structure CC where
  empty : Bool := false
  counter : Nat := 0
  tables : List Alias := []
  computed : List STable := []
  panics : Bool := false
  wheres : List Constraint := []
  colb : AMap Var (List QA) := []
  inputs : List Var := []
  vals : AMap Var TypedValue := []
  known : AMap Var TypeSet := []
  extracted : AMap Var QA := []
  required : AMap Var TypeSet := []

namespace CC

/-- mod.rs:758-763 `mark_known_empty` -/
def markEmpty (cc : CC) : CC := { cc with empty := true }

/-- `wheres.add_intersection` -/
def addWhere (cc : CC) (c : Constraint) : CC := { cc with wheres := cc.wheres ++ [c] }

/-- mod.rs:396-401 `known_type` -/
def knownType (cc : CC) (x : Var) : Option ValueType :=
  match AMap.get cc.known x with
  | some s => if s.isUnit then s.exemplar else none
  | none => none

/-- mod.rs:403-408 `known_type_set` -/
def knownTypeSet (cc : CC) (x : Var) : TypeSet := (AMap.get cc.known x).getD TypeSet.any

/-- mod.rs:83-97 `keep_intersected_keys`: `max(0, self.len() - ks.len())` underflows, a panic, when
there are fewer entries than keys to keep. -/
def keepKeys {α : Type} (m : AMap Var α) (ks : List Var) : Res (AMap Var α) :=
  if m.isEmpty then .ok m
  else if ks.isEmpty then .ok []
  else if m.length < (dedup ks).length then .panic
  else .ok (m.filter fun p => decide (p.1 ∈ ks))

/-- mod.rs:75-81 `with_intersected_keys` -/
def withKeys {α : Type} (m : AMap Var α) (ks : List Var) : AMap Var α :=
  m.filter fun p => decide (p.1 ∈ ks)

/-- mod.rs:596-616 `constrain_var_to_type` -/
def constrainType (cc : CC) (x : Var) (t : ValueType) : CC :=
  let cc' := { cc with known := AMap.insert cc.known x (TypeSet.one t) }
  match AMap.get cc.known x with
  | some s => if s t then cc' else cc'.markEmpty
  | none => cc'

/-- mod.rs:693-725 `narrow_types_for_var` -/
def narrowTypes (cc : CC) (x : Var) (ts : TypeSet) : CC :=
  if ts.isEmpty then cc.markEmpty else
  match AMap.get cc.known x with
  | none => { cc with known := AMap.insert cc.known x ts }
  | some s =>
    let cc' := { cc with known := AMap.insert cc.known x (ts.inter s) }
    if (ts.inter s).isEmpty then cc'.markEmpty else cc'

/-- mod.rs:620-659 `add_type_requirement` -/
def addRequirement (cc : CC) (x : Var) (ts : TypeSet) : CC :=
  if ts.isEmpty then cc.markEmpty else
  match AMap.get cc.required x with
  | none => { cc with required := AMap.insert cc.required x ts }
  | some s =>
    let cc' := { cc with required := AMap.insert cc.required x (ts.inter s) }
    if (ts.inter s).isEmpty then cc'.markEmpty else cc'

/-- mod.rs:661-687 `broaden_types` -/
def broadenTypes (cc : CC) : List (Var × TypeSet) → Res CC
  | [] => .ok cc
  | (x, ts) :: r =>
    match AMap.get cc.known x with
    | none => broadenTypes { cc with
        known := AMap.insert cc.known x ts
        extracted := if ts.isUnit then AMap.erase cc.extracted x else cc.extracted } r
    | some s =>
      if s.isEmpty && cc.empty then .panic
      else broadenTypes { cc with known := AMap.insert cc.known x (s.union ts) } r

/-- mod.rs:568-594 `can_constrain_var_to_type` (here: can it?) -/
def canConstrain (cc : CC) (x : Var) (t : ValueType) : Bool :=
  match AMap.get cc.known x with
  | some s => s t
  | none => true

/-- mod.rs:515-532 `constrain_column_to_constant` -/
def constrainConst (cc : CC) (q : QA) (v : TypedValue) : CC :=
  match v with
  | .ref e => cc.addWhere (eqEntid q e)
  | v => cc.addWhere (eqValue q v)

/-- types.rs:138-145, 224-231, 273-280 `for_associated_type_tag`: only value columns have one. -/
def typeTag (q : QA) : Option QA :=
  match q.2 with
  | .v => some (q.1, .tag)
  | _ => none

/-- mod.rs:344-368 `bind_value` -/
def bindValue (cc : CC) (x : Var) (v : TypedValue) : CC :=
  let cc1 := cc.constrainType x v.valueType
  let cc2 := match AMap.get cc1.colb x with
    | some (q :: _) => cc1.addWhere (eqValue q v)
    | _ => cc1
  let cc3 := match AMap.get cc2.extracted x with
    | some q => cc2.addWhere (hasUnitType q.1 v.valueType)
    | none => cc2
  { cc3 with vals := AMap.insert cc3.vals x v }

/-- Does `bind_column_to_var` take the column for one that can only hold an entity?  Those of `datoms`
and its views (`Column::Fixed`), not of `transactions`. -/
def entityColumn (q : QA) : Bool :=
  match q.1.table, q.2 with
  | .transactions, _ => false
  | _, .e => true
  | _, .a => true
  | _, .tx => true
  | _, _ => false

/-- Record a column for a variable (mod.rs:509-512). -/
def pushColumn (cc : CC) (q : QA) (x : Var) : CC :=
  { cc with colb := AMap.insert cc.colb x ((AMap.get cc.colb x).getD [] ++ [q]) }

/-- mod.rs:410-513 `bind_column_to_var` -/
def bindColumn (cc : CC) (s : Schema) (q : QA) (x : Var) : CC :=
  match AMap.get cc.vals x with
  | some v =>
    if entityColumn q then
      match v with
      | .keyword k => match AMap.get s.identMap k with
        | some e => cc.addWhere (eqEntid q e)
        | none => cc.markEmpty
      | .ref e => cc.addWhere (eqEntid q e)
      | _ => cc.markEmpty
    else cc.constrainConst q v
  | none =>
    let needs := !decide (x ∈ cc.inputs) && (cc.knownType x).isNone && (AMap.get cc.extracted x).isNone
    let cc1 := match needs, typeTag q with
      | true, some t => { cc with extracted := AMap.insert cc.extracted x t }
      | _, _ => cc
    cc1.pushColumn q x

/-! ### Patterns (clauses/pattern.rs) -/

/-- types.rs:705-709 `EvolvedNonValuePlace` -/
inductive ENonValue where
  | placeholder
  | var (x : Var)
  | entid (e : Entid)
  deriving DecidableEq, Repr

/-- types.rs:713-720 `EvolvedValuePlace` -/
inductive EValue where
  | placeholder
  | var (x : Var)
  | entid (e : Entid)
  | value (v : TypedValue)
  | entidOrInteger (i : Int)
  | identOrKeyword (k : Keyword)
  deriving DecidableEq, Repr

/-- types.rs:736-742 `EvolvedPattern` -/
structure EPattern where
  named : Bool
  e : ENonValue
  a : ENonValue
  v : EValue
  tx : ENonValue
  deriving DecidableEq, Repr

/-- pattern.rs:30-39 `into_typed_value`: a big integer is a panic. -/
def NIC.toTyped : NIC → Res TypedValue
  | .bigInteger _ => .panic
  | .boolean b => .ok (.boolean b)
  | .float d => .ok (.double d)
  | .text s => .ok (.string s)
  | .instant us => .ok (.instant us)
  | .uuid u => .ok (.uuid u)

/-- `e as f64` in units of `2^-1074`.  Simplification: the rounding of integers beyond `2^53` is not
modelled. -/
def intToDouble (i : Int) : Int := i * 2 ^ 1074

/-- pattern.rs:433-468 `make_evolved_non_value`; `none` is `Empty`. -/
def evolveNonValue (cc : CC) (s : Schema) : NonValue → Option ENonValue
  | .placeholder => some .placeholder
  | .entid e => some (.entid e)
  | .ident k => (AMap.get s.identMap k).map .entid
  | .var x => match AMap.get cc.vals x with
    | none => some (.var x)
    | some (.ref e) => some (.entid e)
    | some (.keyword k) => (AMap.get s.identMap k).map .entid
    | some _ => none

/-- pattern.rs:487-506 `make_evolved_attribute` -/
def evolveAttribute (cc : CC) (s : Schema) (a : NonValue) : Option (ENonValue × Option ValueType) :=
  match cc.evolveNonValue s a with
  | none => none
  | some (.entid e) => match s.attr e with
    | some at_ => some (.entid e, some at_.valueType)
    | none => none
  | some p => some (p, none)

/-- pattern.rs:508-566 `make_evolved_value` -/
def evolveValue (cc : CC) (s : Schema) (t : Option ValueType) : PatValue → Res (Option EValue)
  | .placeholder => .ok (some .placeholder)
  | .entidOrInteger i => match t with
    | some .ref => .ok (some (.entid i))
    | some .long => .ok (some (.value (.long i)))
    | some .double => .ok (some (.value (.double (intToDouble i))))
    | some _ => .ok none
    | none => .ok (some (.entidOrInteger i))
  | .identOrKeyword k => match t with
    | some .ref => .ok ((AMap.get s.identMap k).map .entid)
    | some .keyword => .ok (some (.value (.keyword k)))
    | some _ => .ok none
    | none => .ok (some (.identOrKeyword k))
  | .var x => match AMap.get cc.vals x with
    | none => .ok (some (.var x))
    | some (.ref e) => .ok (if cc.canConstrain x .ref then some (.entid e) else none)
    | some v => .ok (if cc.canConstrain x v.valueType then some (.value v) else none)
  | .constant c => (NIC.toTyped c).bind fun v => .ok (some (.value v))

/-- pattern.rs:568-601 `make_evolved_pattern` -/
def evolvePattern (cc : CC) (s : Schema) (p : Pattern) : Res (Option EPattern) :=
  match cc.evolveNonValue s p.e with
  | none => .ok none
  | some e => match cc.evolveAttribute s p.a with
    | none => .ok none
    | some (a, t) => (cc.evolveValue s t p.v).bind fun ov =>
      match ov with
      | none => .ok none
      | some v => match cc.evolveNonValue s p.tx with
        | none => .ok none
        | some tx => .ok (some { named := p.named, e := e, a := a, v := v, tx := tx })

/-- pattern.rs:604-653 `evolve_pattern`: values bound since. -/
def reEvolve (cc : CC) (p : EPattern) : Option EPattern :=
  let v := match p.v with
    | .var x => match AMap.get cc.vals x with
      | none => p.v
      | some w => .value w
    | w => w
  match p.e with
  | .var x => match AMap.get cc.vals x with
    | none => some { p with v := v }
    | some (.ref e) => some { p with e := .entid e, v := v }
    | some _ => none
  | _ => some { p with v := v }

/-- mod.rs:744-750 `constrain_to_ref`, 738-742 `constrain_to_tx` -/
def constrainRef (cc : CC) : ENonValue → CC
  | .var x => cc.constrainType x .ref
  | _ => cc

/-- mod.rs:774-797 `table_for_attribute_and_value` -/
def tableForAttribute (at_ : Attribute) (v : EValue) : Option DTable :=
  if at_.fulltext then
    match v with
    | .placeholder => some .datoms
    | .var _ => some .fulltextDatoms
    | .value (.string _) => some .fulltextDatoms
    | _ => none
  else some .datoms

/-- mod.rs:799-834 `table_for_unknown_attribute` -/
def tableForUnknown (cc : CC) : EValue → DTable
  | .var x =>
    if ((AMap.get cc.required x).all fun s => s .string) && ((AMap.get cc.known x).all fun s => s .string)
    then .allDatoms else .datoms
  | .value (.string _) => .allDatoms
  | _ => .datoms

/-- mod.rs:912-923 `get_attribute_for_value`, core/src/lib.rs `attribute_for_ident` -/
def attrForValue (s : Schema) : TypedValue → Option Attribute
  | .ref e => s.attr e
  | .keyword k => (AMap.get s.identMap k).bind s.attr
  | _ => none

/-- mod.rs:840-886 `table_for_places` -/
def tableFor (cc : CC) (s : Schema) (a : ENonValue) (v : EValue) : Option DTable :=
  match a with
  | .entid e => (s.attr e).bind fun at_ => tableForAttribute at_ v
  | .placeholder => some (cc.tableForUnknown v)
  | .var x => match AMap.get cc.vals x with
    | none => some (cc.tableForUnknown v)
    | some w => (attrForValue s w).bind fun at_ => tableForAttribute at_ v

/-- mod.rs:925-947 `get_attribute`, 949-956 `get_value_type` -/
def valueTypeOf (cc : CC) (s : Schema) (p : EPattern) : Option ValueType :=
  (match p.a with
  | .entid e => s.attr e
  | .var x => (AMap.get cc.vals x).bind (attrForValue s)
  | .placeholder => none).map Attribute.valueType

/-- pattern.rs:107-120 (and 265-273 for the transaction): the entity place -/
def applyRefPlace (cc : CC) (s : Schema) (al : Alias) (c : Col) : ENonValue → CC
  | .placeholder => cc
  | .var x => cc.bindColumn s (al, c) x
  | .entid e => cc.addWhere (eqEntid (al, c) e)

/-- pattern.rs:146-262: the value place.  The second component says whether to go on with the
transaction place. -/
def applyValuePlace (cc : CC) (s : Schema) (al : Alias) (t : Option ValueType) : EValue → CC × Bool
  | .placeholder => (cc, true)
  | .var x =>
    let cc1 := match t with
      | some t => cc.constrainType x t
      | none => cc
    if t.isSome && cc1.empty then (cc1, false) else (cc1.bindColumn s (al, .v) x, true)
  | .entid i => match t with
    | some .ref => (cc.addWhere (eqEntid (al, .v) i), true)
    | none => (cc.addWhere (eqEntid (al, .v) i), true)
    | some _ => (cc.markEmpty, true)
  | .entidOrInteger i => match t with
    | some .ref => (cc.addWhere (eqEntid (al, .v) i), true)
    | _ => (cc.addWhere (eqNumeric al i), true)
  | .identOrKeyword k => match t with
    | some .ref => match AMap.get s.identMap k with
      | some e => (cc.addWhere (eqEntid (al, .v) e), true)
      | none => (cc.markEmpty, false)
    | _ => ((cc.addWhere (eqValue (al, .v) (.keyword k))).addWhere (hasUnitType al .keyword), true)
  | .value v =>
    if t.all fun t => decide (v.valueType = t) then
      let cc1 := cc.constrainConst (al, .v) v
      (if t.isNone then cc1.addWhere (hasUnitType al v.valueType) else cc1, true)
    else (cc.markEmpty, false)

/-- pattern.rs:78-274 `apply_pattern_clause_for_alias` -/
def applyForAlias (cc : CC) (s : Schema) (p : EPattern) (al : Alias) : CC :=
  if cc.empty then cc else
  let cc1 := ((cc.constrainRef p.tx).constrainRef p.e).constrainRef p.a
  let cc2 := cc1.applyRefPlace s al .e p.e
  let bad := match p.a with
    | .entid e => (s.attr e).isNone
    | _ => false
  if bad then cc2.markEmpty else
  let cc3 := cc2.applyRefPlace s al .a p.a
  let r := cc3.applyValuePlace s al (cc3.valueTypeOf s p) p.v
  if r.2 then r.1.applyRefPlace s al .tx p.tx else r.1

/-- lib.rs:70-86 `is_attribute_cached_reverse`, `is_attribute_cached_forward` -/
def _root_.Mentat.Known.cachedForward (k : Known) (a : Entid) : Bool := k.cache.any fun c => c.cachedForward a
/-- lib.rs:70-86 `is_attribute_cached_reverse` -/
def _root_.Mentat.Known.cachedReverse (k : Known) (a : Entid) : Bool := k.cache.any fun c => c.cachedReverse a

/-- pattern.rs:276-325 `reverse_lookup`: the new clauses, or `none` when the cache does not help. -/
def reverseLookup (cc : CC) (k : Known) (x : Var) (a : Entid) (v : TypedValue) : Option CC :=
  match k.schema.attr a with
  | none => some cc.markEmpty
  | some at_ =>
    if at_.unique.isSome then
      match k.cache.bind fun c => c.getEntid a v with
      | none => some cc.markEmpty
      | some e => some (cc.bindValue x (.ref e))
    else
      match k.cache.bind fun c => c.getEntids a v with
      | none => some cc.markEmpty
      | some [e] => some (cc.bindValue x (.ref e))
      | some _ => none

/-- pattern.rs:330-429 `attempt_cache_lookup` -/
def cacheLookup (cc : CC) (k : Known) (p : EPattern) : Option CC :=
  if p.tx ≠ .placeholder then none else
  match p.a with
  | .entid a =>
    match k.schema.attr a with
    | none => some cc.markEmpty
    | some at_ =>
      if k.cachedForward a || k.cachedReverse a then
        match p.e, p.v with
        | .var x, .identOrKeyword kw =>
          match at_.valueType with
          | .ref => none
          | .keyword => cc.reverseLookup k x a (.keyword kw)
          | _ => some cc.markEmpty
        | .var x, .value v => if k.cachedReverse a then cc.reverseLookup k x a v else none
        | .entid e, .var x =>
          if k.cachedForward a then
            match k.cache.bind fun c => c.getValue k.schema a e with
            | none => some cc.markEmpty
            | some v => some (cc.bindValue x v)
          else none
        | _, _ => none
      else none
  | _ => none

/-- pattern.rs:664-685 `apply_pattern` -/
def applyPattern (cc : CC) (k : Known) (p : EPattern) : Res CC :=
  if p.named then .panic else
  match cc.cacheLookup k p with
  | some cc' => .ok cc'
  | none =>
    match cc.tableFor k.schema p.a p.v with
    | none => .ok cc.markEmpty
    | some t =>
      let al : Alias := ⟨t, cc.counter⟩
      let cc1 := { cc with counter := cc.counter + 1 }
      let cc2 := cc1.applyForAlias k.schema p al
      .ok { cc2 with tables := cc2.tables ++ [al] }

/-- mod.rs:1108-1123 `apply_evolved_patterns` -/
def applyEvolved (cc : CC) (k : Known) : List EPattern → Res CC
  | [] => .ok cc
  | p :: ps => match cc.reEvolve p with
    | some p' => (cc.applyPattern k p').bind fun cc' => applyEvolved cc' k ps
    | none => .ok cc.markEmpty

/-! ### Finishing -/

/-- mod.rs:975-992 `expand_column_bindings` -/
def expand (cc : CC) : CC :=
  { cc with wheres := cc.wheres ++ cc.colb.flatMap fun p =>
      match p.2 with
      | [] => []
      | q :: r => r.map fun q' => eqCol q q' }

/-- mod.rs:994-1004 `prune_extracted_types` -/
def prune (cc : CC) : CC :=
  { cc with extracted := cc.extracted.filter fun p => !(match AMap.get cc.known p.1 with
      | some s => s.isUnit
      | none => false) }

/-- The order of variables: that of their names. -/
def varLt (x y : Var) : Bool := lexLt (x.map Char.toNat) (y.map Char.toNat)

/-- A map in the order of its keys (`BTreeMap`). -/
def insertVar {α : Type} (p : Var × α) : List (Var × α) → List (Var × α)
  | [] => [p]
  | q :: r => if varLt q.1 p.1 then q :: insertVar p r else p :: q :: r
/-- Iteration over a `BTreeMap` of variables. -/
def sortVars {α : Type} (m : AMap Var α) : AMap Var α := m.foldr insertVar []

/-- The loop of `process_required_types` (mod.rs:1025-1081) -/
def processLoop (cc : CC) : List (Var × TypeSet) → Res CC
  | [] => .ok cc
  | (x, ts) :: r =>
    let go : Res CC :=
      let cc1 := cc.narrowTypes x ts
      match AMap.get cc1.extracted x with
      | none => .err .unboundVariable
      | some q => processLoop (cc1.addWhere (hasTypes q.1 ts true)) r
    match AMap.get cc.known x with
    | some s =>
      if s.disjoint ts then .ok cc.markEmpty
      else if s.subset ts then processLoop cc r
      else go
    | none => go

/-- mod.rs:1014-1087 `process_required_types` -/
def processRequired (cc : CC) : Res CC :=
  if cc.empty then .ok cc else cc.processLoop (sortVars cc.required)

/-- `expand_column_bindings`, `prune_extracted_types`, `process_required_types` in sequence. -/
def finish (cc : CC) : Res CC := cc.expand.prune.processRequired

end CC
end Mentat
