import Verif.Model.CC
/-
The algebrizer: query-algebrizer/src/clauses/{mod,predicate,resolve,convert,ground,not,or,where_fn,tx_log_api}.rs,
validate.rs, lib.rs; the translation of subqueries in query-projector/src/translate.rs.
-/
namespace Mentat
namespace CC

/-! ### Translation of subqueries -/

/-- The tables of `FROM` (translate.rs:332-350) -/
def stables (cc : CC) : List STable :=
  cc.tables.map fun al => if al.table = .computed then (cc.computed[al.n]?).getD (.table al) else .table al

/-- translate.rs:343-385 `cc_to_select_query`.  A projection of no columns stands for `SELECT 1`. -/
def toSelect (cc : CC) (cols : List (SExpr × Col)) (distinct : Bool) (order : List (Bool × Col))
    (limit : Option Nat) : Res Select :=
  if cc.panics then .panic
  else .ok (.mk distinct cols cc.stables cc.wheres order (if cc.empty then some 0 else limit))

/-- query-projector/src/project.rs:124-141 `projected_column_for_var` -/
def projectedColumn (cc : CC) (x : Var) : Res (SExpr × TypeSet) :=
  match AMap.get cc.vals x with
  | some v => .ok (.const v.toSql.1, TypeSet.one v.valueType)
  | none => match AMap.get cc.colb x with
    | some (q :: _) => .ok (.col q.1 q.2, cc.knownTypeSet x)
    | _ => .err .unboundVariable

/-- translate.rs:262-304: the columns of an arm of a union; a variable the arm does not bind is a
panic. -/
def armColumns (cc : CC) (typeNeeded : List Var) : List Var → Res (List (SExpr × Col))
  | [] => .ok []
  | x :: xs => match cc.projectedColumn x with
    | .ok (e, ts) =>
      let tagCol : Res (List (SExpr × Col)) :=
        if x ∈ typeNeeded then
          match ts.uniqueTag with
          | some t => .ok [(.const (.integer t), .varTag x)]
          | none => match AMap.get cc.extracted x with
            | some q => .ok [(.col q.1 q.2, .varTag x)]
            | none => .panic
        else .ok []
      tagCol.bind fun t => (armColumns cc typeNeeded xs).bind fun r => .ok ((e, .var x) :: t ++ r)
    | _ => .panic

/-- query-projector/src/translate.rs:268-313: the select of one arm of a union. -/
def armSelect (cc : CC) (proj typeNeeded : List Var) : Res Select :=
  (cc.armColumns typeNeeded proj).bind fun cols => cc.toSelect cols false [] none

/-- The arms, one after the other. -/
def armSelects (proj typeNeeded : List Var) : List CC → Res (List Select)
  | [] => .ok []
  | c :: cs => (c.armSelect proj typeNeeded).bind fun q =>
      (armSelects proj typeNeeded cs).bind fun qs => .ok (q :: qs)

/-! ### Predicates (clauses/predicate.rs, clauses/resolve.rs) -/

/-- types.rs:343-358 `to_sql_operator` -/
def _root_.Mentat.Ineq.sql : Ineq → SqlOp
  | .lt => .lt
  | .le => .le
  | .gt => .gt
  | .ge => .ge
  | .ne => .ne
  | .unpermute => .lt
  | .differ => .ne
  | .txAfter => .gt
  | .txBefore => .lt

/-- types.rs:378-388 `supported_types` -/
def _root_.Mentat.Ineq.supported : Ineq → TypeSet
  | .lt | .le | .gt | .ge | .ne => fun t => decide (t = .long) || decide (t = .double) || decide (t = .instant)
  | .unpermute | .differ | .txAfter | .txBefore => TypeSet.one .ref

/-- clauses/convert.rs:41-86 `potential_types`, predicate.rs:45-50 -/
def potentialTypes (cc : CC) (s : Schema) : FnArg → Res TypeSet
  | .var x => .ok (cc.knownTypeSet x)
  | .int i => .ok (if 0 ≤ i then fun t => decide (t = .ref) || decide (t = .long) else TypeSet.one .long)
  | .kw k => .ok (if (AMap.get s.identMap k).isSome then fun t => decide (t = .ref) || decide (t = .keyword)
      else TypeSet.one .keyword)
  | .const (.boolean _) => .ok (TypeSet.one .boolean)
  | .const (.instant _) => .ok (TypeSet.one .instant)
  | .const (.uuid _) => .ok (TypeSet.one .uuid)
  | .const (.float _) => .ok (TypeSet.one .double)
  | .const (.text _) => .ok (TypeSet.one .string)
  | .const (.bigInteger _) => .err .other
  | .src _ => .err .other
  | .vec _ => .err .other

/-- The first column of a variable, as an argument. -/
def firstColumn (cc : CC) (x : Var) : Res SExpr :=
  match AMap.get cc.colb x with
  | some (q :: _) => .ok (.col q.1 q.2)
  | _ => .err .unboundVariable

/-- resolve.rs:30-69 `resolve_numeric_argument` -/
def resolveNumeric (cc : CC) : FnArg → Res (CC × SExpr)
  | .var x => match AMap.get cc.vals x with
    | some v => if TypeSet.numeric v.valueType then .ok (cc, .const v.toSql.1) else .err .other
    | none =>
      let cc1 := cc.narrowTypes x TypeSet.numeric
      (cc1.firstColumn x).bind fun e => .ok (cc1, e)
  | .int i => .ok (cc, .const (.integer i))
  | .const (.float d) => .ok (cc, .const (.real d))
  | _ => .err .other

/-- resolve.rs:72-118 `resolve_instant_argument` -/
def resolveInstant (cc : CC) : FnArg → Res (CC × SExpr)
  | .var x => match AMap.get cc.vals x with
    | some (.instant us) => .ok (cc, .const (TypedValue.instant us).toSql.1)
    | some _ => .err .other
    | none =>
      let cc1 := cc.constrainType x .instant
      (cc1.firstColumn x).bind fun e => .ok (cc1, e)
  | .const (.instant us) => .ok (cc, .const (TypedValue.instant us).toSql.1)
  | _ => .err .other

/-- resolve.rs:121-178 `resolve_ref_argument`, `resolve_tx_argument` -/
def resolveRef (cc : CC) (s : Schema) : FnArg → Res (CC × SExpr)
  | .var x =>
    let cc1 := cc.constrainType x .ref
    match AMap.get cc1.vals x with
    | some (.ref e) => .ok (cc1, .const (.integer e))
    | _ => (cc1.firstColumn x).bind fun e => .ok (cc1, e)
  | .int i => .ok (cc, .const (.integer i))
  | .kw k => match AMap.get s.identMap k with
    | some e => .ok (cc, .const (.integer e))
    | none => .err .unrecognizedIdent
  | _ => .err .other

/-- predicate.rs:72-175 `apply_inequality` -/
def applyInequality (cc : CC) (s : Schema) (op : Ineq) (args : List FnArg) : Res CC :=
  match args with
  | [l, r] =>
    (cc.potentialTypes s l).bind fun pl =>
    let lt0 := pl.inter op.supported
    if lt0.isEmpty then .err .other else
    (cc.potentialTypes s r).bind fun pr =>
    let rt0 := pr.inter op.supported
    if rt0.isEmpty then .err .other else
    let rt : TypeSet := if rt0 .long then rt0.union (TypeSet.one .double) else rt0
    let lt : TypeSet := if lt0 .long then lt0.union (TypeSet.one .double) else lt0
    let shared := lt.inter rt
    if shared.isEmpty then .ok cc.markEmpty else
    let resolve : CC → FnArg → Res (CC × SExpr) :=
      if shared.eq (TypeSet.one .instant) then resolveInstant
      else if shared.onlyNumeric then resolveNumeric
      else if shared.eq (TypeSet.one .ref) then fun c a => c.resolveRef s a
      else fun _ _ => .err .other
    (resolve cc l).bind fun p => (resolve p.1 r).bind fun q =>
      .ok (q.1.addWhere (.infix op.sql p.2 q.2))
  | _ => .err .other

/-- predicate.rs:54-68 `apply_type_anno` -/
def applyTypeAnno (cc : CC) (x : Var) : Option ValueType → Res CC
  | some t => .ok (cc.addRequirement x (TypeSet.one t))
  | none => .err .other

/-! ### `ground` (clauses/ground.rs, clauses/convert.rs) -/

/-- convert.rs:100-222 `typed_value_from_arg`; `none` is `Impossible`. -/
def valueFromArg (cc : CC) (s : Schema) (x : Var) (arg : FnArg) (known : TypeSet) :
    Res (Option TypedValue) :=
  if known.isEmpty then .ok none else
  let ct : TypeSet := match AMap.get cc.required x with
    | some r => known.inter r
    | none => known
  let coerce (v : TypedValue) : Res (Option TypedValue) := .ok (if known v.valueType then some v else none)
  match arg with
  | .int i => .ok <|
    if ct .long && (!ct .ref || decide (0 ≤ i)) then some (.long i)
    else if ct .ref && decide (0 ≤ i) then some (.ref i)
    else none
  | .kw k => .ok <|
    if ct .keyword then some (.keyword k)
    else if ct .ref then (AMap.get s.identMap k).map .ref
    else none
  | .var y => if y ∈ cc.inputs then
      match AMap.get cc.vals y with
      | some v => .ok (some v)
      | none => .err .unboundVariable
    else .err .unboundVariable
  | .const (.bigInteger _) => .panic
  | .const (.boolean b) => coerce (.boolean b)
  | .const (.instant us) => coerce (.instant us)
  | .const (.uuid u) => coerce (.uuid u)
  | .const (.float d) => coerce (.double d)
  | .const (.text t) => coerce (.string t)
  | .vec _ => .err .other
  | .src _ => .err .other

/-- ground.rs:101-116 `apply_ground_value` -/
def groundValue (cc : CC) (x : Var) (v : TypedValue) : CC :=
  match AMap.get cc.vals x with
  | some w => if w = v then cc else cc.markEmpty
  | none => cc.bindValue x v

/-- ground.rs:84-99 `apply_ground_var` -/
def groundVar (cc : CC) (s : Schema) (x : Var) (arg : FnArg) : Res CC :=
  (cc.valueFromArg s x arg (cc.knownTypeSet x)).bind fun o => match o with
    | some v => .ok (cc.groundValue x v)
    | none => .ok cc.markEmpty

/-- ground.rs:148-160: a tuple -/
def groundTuple (cc : CC) (s : Schema) : List (Option Var) → List FnArg → Res CC
  | some x :: ps, a :: as => (cc.groundVar s x a).bind fun cc' => groundTuple cc' s ps as
  | none :: ps, _ :: as => groundTuple cc s ps as
  | _, _ => .ok cc

/-- ground.rs:32-68 `collect_named_bindings`: the columns of the computed table -/
def bindNamed (cc : CC) (s : Schema) (al : Alias) : List (Var × ValueType) → CC
  | [] => cc
  | (x, t) :: r => bindNamed ((cc.constrainType x t).bindColumn s (al, .var x) x) s al r

/-- ground.rs:32-68 `collect_named_bindings`: the computed table, joined under its alias. -/
def collectNamed (cc : CC) (s : Schema) (names : List (Var × ValueType)) (rows : List (List TypedValue)) :
    CC :=
  let al : Alias := ⟨.computed, cc.computed.length⟩
  let t := STable.values (names.map (·.1)) (rows.map fun r => r.map fun v => v.toSql.1) al
  let cc1 := ({ cc with computed := cc.computed ++ [t] }).bindNamed s al names
  { cc1 with tables := cc1.tables ++ [al] }

/-- ground.rs:170-208: the values of a collection, the impossible ones left out, with their common type -/
def collValues (cc : CC) (s : Schema) (x : Var) (known : TypeSet) :
    List FnArg → Option ValueType → Res (List TypedValue × Option ValueType)
  | [], t => .ok ([], t)
  | a :: as, t => (cc.valueFromArg s x a known).bind fun o => match o with
    | none => collValues cc s x known as t
    | some v =>
      if t.all fun t => decide (v.valueType = t) then
        (collValues cc s x known as (some v.valueType)).bind fun r => .ok (v :: r.1, r.2)
      else .err .other

/-- ground.rs:265-283: one row; `none` if it contains an impossible value (the rest of the row is then
not looked at). -/
def rowValues (cc : CC) (s : Schema) : List (Option (Var × TypeSet)) → List FnArg →
    Res (Option (List TypedValue))
  | some (x, known) :: ts, a :: as => (cc.valueFromArg s x a known).bind fun o => match o with
    | none => .ok none
    | some v => (rowValues cc s ts as).bind fun r => .ok (r.map (v :: ·))
  | none :: ts, _ :: as => rowValues cc s ts as
  | _, _ => .ok (some [])

/-- ground.rs:250-310: the rows, with the types of the columns -/
def relValues (cc : CC) (s : Schema) (tmpl : List (Option (Var × TypeSet))) :
    List FnArg → Option (List ValueType) → Res (List (List TypedValue) × Option (List ValueType))
  | [], ts => .ok ([], ts)
  | .vec cols :: rows, ts =>
    if cols.length ≠ tmpl.length then .err .other else
    (cc.rowValues s tmpl cols).bind fun o => match o with
      | none => relValues cc s tmpl rows ts
      | some vals =>
        if ts.all fun ts => decide (vals.map TypedValue.valueType = ts) then
          (relValues cc s tmpl rows (some (vals.map TypedValue.valueType))).bind fun r =>
            .ok (vals :: r.1, r.2)
        else .err .other
  | _ :: _, _ => .err .other

/-- ground.rs:118-330 `apply_ground` -/
def applyGround (cc : CC) (s : Schema) (args : List FnArg) (b : Binding) : Res CC :=
  match args with
  | [arg] =>
    if b.isEmpty then .err .other else
    if !b.isValid then .err .other else
    match b, arg with
    | .scalar x, c => cc.groundVar s x c
    | .tuple ps, .vec cs => if cs.length ≠ ps.length then .err .other else cc.groundTuple s ps cs
    | .coll x, .vec cs =>
      if cs.isEmpty then .err .other else
      (cc.collValues s x (cc.knownTypeSet x) cs none).bind fun r => match r.2 with
        | none => .ok cc.markEmpty
        | some t => .ok (cc.collectNamed s [(x, t)] (r.1.map fun v => [v]))
    | .rel ps, .vec rows =>
      if rows.isEmpty then .err .other else
      let tmpl := ps.map fun p => p.map fun x => (x, cc.knownTypeSet x)
      (cc.relValues s tmpl rows none).bind fun r => match r.2 with
        | none => .ok cc.markEmpty
        | some ts => .ok (cc.collectNamed s ((ps.filterMap id).zip ts) r.1)
    | _, _ => .err .other
  | _ => .err .other

/-! ### The transaction log (clauses/tx_log_api.rs) -/

/-- Bind a column of `transactions`, its type known (tx_log_api.rs:233-300); the second component says
whether to go on. -/
def bindTyped (cc : CC) (s : Schema) (q : QA) (t : ValueType) : Option Var → CC × Bool
  | none => (cc, true)
  | some x =>
    let cc1 := cc.constrainType x t
    if cc1.empty then (cc1, false) else (cc1.bindColumn s q x, true)

/-- A new alias of `transactions` (tx_log_api.rs:113-118, 222-227). -/
def logAlias (cc : CC) : Alias := ⟨.transactions, cc.counter⟩
/-- The clauses with that alias among their tables (tx_log_api.rs:113-118, 222-227). -/
def withLog (cc : CC) : CC := { cc with counter := cc.counter + 1, tables := cc.tables ++ [cc.logAlias] }

/-- The variable `tx-ids` binds (tx_log_api.rs:67-92). -/
def txVar : Binding → Option Var
  | .rel [some x] => some x
  | .coll x => some x
  | _ => none

/-- tx_log_api.rs:41-149 `apply_tx_ids` -/
def applyTxIds (cc : CC) (s : Schema) (args : List FnArg) (b : Binding) : Res CC :=
  match args with
  | [src, t1, t2] =>
    if b.isEmpty then .err .other else
    if !b.isValid then .err .other else
    match txVar b with
    | none => .err .other
    | some x =>
      match src with
      | .src false =>
        (cc.resolveRef s t1).bind fun p1 => (p1.1.resolveRef s t2).bind fun p2 =>
          let cc1 := p2.1
          let al := cc1.logAlias
          let cc2 := cc1.withLog
          let r := cc2.bindTyped s (al, .tx) .ref (some x)
          .ok (if r.2 then
            (r.1.addWhere (.infix .le p1.2 (.col al .tx))).addWhere (.infix .lt (.col al .tx) p2.2)
            else r.1)
      | _ => .err .other
  | _ => .err .other

/-- tx_log_api.rs:231-307: bind the columns in turn, giving up when the clauses are known to be empty; no
type is known of the value column. -/
def bindLog (cc : CC) (s : Schema) (al : Alias) : List (Col × Option ValueType × Option Var) → CC
  | [] => cc
  | (c, some t, o) :: r =>
    let p := cc.bindTyped s (al, c) t o
    if p.2 then bindLog p.1 s al r else p.1
  | (c, none, some x) :: r => bindLog (cc.bindColumn s (al, c) x) s al r
  | (_, none, none) :: r => bindLog cc s al r

/-- tx_log_api.rs:151-310 `apply_tx_data` -/
def applyTxData (cc : CC) (s : Schema) (args : List FnArg) (b : Binding) : Res CC :=
  match args with
  | [src, t] =>
    if b.isEmpty then .err .other else
    if !b.isValid then .err .other else
    match b with
    | .rel bs =>
      if bs.length < 1 ∨ 5 < bs.length then .err .other else
      let at_ (i : Nat) : Option Var := (bs[i]?).join
      match src with
      | .src false =>
        (cc.resolveRef s t).bind fun p =>
          let cc1 := p.1
          let al := cc1.logAlias
          let cc2 := cc1.withLog
          let cc3 := cc2.addWhere (.infix .eq (.col al .tx) p.2)
          .ok (cc3.bindLog s al [(.e, some .ref, at_ 0), (.a, some .ref, at_ 1), (.v, none, at_ 2),
            (.tx, some .ref, at_ 3), (.added, some .boolean, at_ 4)])
      | _ => .err .other
    | _ => .err .other
  | _ => .err .other

/-! ### `fulltext` (clauses/fulltext.rs) -/

/-- The attribute searched (fulltext.rs:104-132): a variable must have a value already. -/
def searchAttribute (cc : CC) (s : Schema) : FnArg → Res Entid
  | .kw k => match AMap.get s.identMap k with
    | some e => .ok e
    | none => .err .other
  | .int e => .ok e
  | .var x => match AMap.get cc.vals x with
    | some (.ref e) => .ok e
    | some _ => .err .other
    | none => .err .unboundVariable
  | _ => .err .other

/-- Aliases of `fulltext_values` and `datoms`, with the conditions that join them (fulltext.rs:151-182). -/
def textAlias (cc : CC) : Alias := ⟨.fulltextValues, cc.counter⟩
/-- The alias of `datoms` (fulltext.rs:151-182). -/
def textDatoms (cc : CC) : Alias := ⟨.datoms, cc.counter + 1⟩
/-- The clauses with the two aliases and their join (fulltext.rs:151-182). -/
def withTexts (cc : CC) (a : Entid) : CC :=
  (({ cc with counter := cc.counter + 2, tables := cc.tables ++ [cc.textAlias, cc.textDatoms] }).addWhere
    (eqEntid (cc.textDatoms, .a) a)).addWhere (eqCol (cc.textDatoms, .v) (cc.textAlias, .rowid))

/-- What is searched for (fulltext.rs:184-234): text, or a variable with a string or a column of strings. -/
def searchArgument (cc : CC) : FnArg → Res SExpr
  | .const (.text p) => .ok (.const (TypedValue.string p).toSql.1)
  | .var x => match AMap.get cc.vals x with
    | some (.string p) => .ok (.const (TypedValue.string p).toSql.1)
    | some _ => .err .other
    | none =>
      if cc.knownType x = some .string then
        if x ∈ cc.inputs then .err .unboundVariable else cc.firstColumn x
      else .err .other
  | _ => .err .other

/-- Bind the column of the text (fulltext.rs:267-281): a variable that has a value is a panic (mod.rs:434-439). -/
def bindText (cc : CC) (s : Schema) (q : QA) : Option Var → Res (CC × Bool)
  | none => .ok (cc, true)
  | some x =>
    let cc1 := cc.constrainType x .string
    if cc1.empty then .ok (cc1, false) else
    match AMap.get cc1.vals x with
    | some _ => .panic
    | none => .ok (cc1.bindColumn s q x, true)

/-- The score is always zero (fulltext.rs:293-310). -/
def bindScore (cc : CC) : Option Var → Res CC
  | none => .ok cc
  | some x =>
    let cc1 := cc.constrainType x .double
    if (AMap.get cc1.vals x).isSome ∨ x ∈ cc1.inputs then .err .other else .ok (cc1.bindValue x (.double 0))

/-- fulltext.rs:253-311: bind the places in turn, giving up when the clauses are known to be empty. -/
def bindSearch (cc : CC) (s : Schema) (text datoms : Alias) (bs : List (Option Var)) : Res CC :=
  let p := cc.bindTyped s (datoms, .e) .ref (bs[0]?).join
  if !p.2 then .ok p.1 else
  (p.1.bindText s (text, .text) (bs[1]?).join).bind fun q =>
  if !q.2 then .ok q.1 else
  let r := q.1.bindTyped s (datoms, .tx) .ref (bs[2]?).join
  if !r.2 then .ok r.1 else r.1.bindScore (bs[3]?).join

/-- fulltext.rs:31-313 `apply_fulltext` -/
def applyFulltext (cc : CC) (s : Schema) (args : List FnArg) (b : Binding) : Res CC :=
  match args with
  | [src, attr, what] =>
    if b.isEmpty then .err .other else
    if !b.isValid then .err .other else
    match b with
    | .rel bs =>
      if bs.length < 1 ∨ 4 < bs.length then .err .other else
      match src with
      | .src false =>
        (cc.searchAttribute s attr).bind fun a => match s.attr a with
          | none => .err .other
          | some at_ =>
            if !at_.fulltext then .ok cc.markEmpty else
            let cc1 := cc.withTexts a
            (cc1.searchArgument what).bind fun e =>
              (cc1.addWhere (.search cc.textAlias e)).bindSearch s cc.textAlias cc.textDatoms bs
      | _ => .err .other
    | _ => .err .other
  | _ => .err .other

/-- where_fn.rs:27-43 `apply_where_fn` -/
def applyWhereFn (cc : CC) (s : Schema) : FnOp → List FnArg → Binding → Res CC
  | .fulltext, args, b => cc.applyFulltext s args b
  | .ground, args, b => cc.applyGround s args b
  | .txIds, args, b => cc.applyTxIds s args b
  | .txData, args, b => cc.applyTxData s args b
  | .other, _, _ => .err .other

/-! ### `or`, `not` -/

/-- mod.rs:313-325 `make_receptacle` -/
def receptacle (cc : CC) : CC :=
  { counter := cc.counter, empty := cc.empty, inputs := cc.inputs, vals := cc.vals, known := cc.known
    extracted := cc.extracted, required := cc.required }

/-- mod.rs:328-340 `use_as_template` -/
def template (cc : CC) (vars : List Var) : CC :=
  { counter := cc.counter, empty := cc.empty, inputs := cc.inputs.filter fun x => decide (x ∈ vars)
    vals := withKeys cc.vals vars, known := withKeys cc.known vars
    extracted := withKeys cc.extracted vars, required := withKeys cc.required vars }

/-- `BTreeSet` equality and inclusion of lists of variables. -/
def varsSubset (xs ys : List Var) : Bool := xs.all fun x => decide (x ∈ ys)
/-- `BTreeSet` equality. -/
def varsEq (xs ys : List Var) : Bool := varsSubset xs ys && varsSubset ys xs

/-- validate.rs:38-67 `validate_or_join` -/
def validateOr : UnifyVars → List OrClause → Bool
  | none, a :: arms => arms.all fun b => varsEq a.vars b.vars
  | none, [] => true
  | some vs, arms => arms.all fun b => varsSubset vs b.vars

/-- validate.rs:69-84 `validate_not_join` -/
def validateNot : UnifyVars → List WhereClause → Bool
  | none, _ => true
  | some vs, cs => varsSubset vs (WhereClause.varsAll cs)

/-- edn/src/query.rs:1051-1068 `is_fully_unified` -/
def fullyUnified (unify : UnifyVars) (arms : List OrClause) : Bool :=
  match unify with
  | none => true
  | some vs => (dedup vs).length == (dedup (OrClause.varsAll arms)).length

/-- or.rs:34-45 `_simply_matches_place` -/
def simplyMatches : NonValue → NonValue → Bool
  | .var x, .var y => decide (x = y)
  | .placeholder, .placeholder => true
  | .entid _, .entid _ => true
  | .entid _, .ident _ => true
  | .ident _, .ident _ => true
  | .ident _, .entid _ => true
  | _, _ => false

/-- or.rs:47-57 `_simply_matches_value_place` -/
def simplyMatchesValue : PatValue → PatValue → Bool
  | .var x, .var y => decide (x = y)
  | .placeholder, .placeholder => true
  | .var _, _ => false
  | _, .var _ => false
  | .placeholder, _ => false
  | _, .placeholder => false
  | _, _ => true

/-- or.rs:216-223: the patterns differ at most in constants. -/
def sameShape (p q : Pattern) : Bool :=
  (p.named == q.named) && simplyMatches p.e q.e && simplyMatches p.a q.a &&
    simplyMatchesValue p.v q.v && simplyMatches p.tx q.tx

/-- or.rs:59-66 `DeconstructedOrJoin`.  For a complex one, the mask says which arms are kept. -/
inductive OrShape where
  | empty
  | unit (p : Pattern)
  | simple (ps : List Pattern)
  | complex (mask : List Bool)

/-- or.rs:190-200: the table for a pattern in an `or`; `none` if it cannot match. -/
def tableForArm (cc : CC) (s : Schema) (p : Pattern) : Res (Option DTable) :=
  match cc.evolveAttribute s p.a with
  | none => .ok none
  | some (a, t) => (cc.evolveValue s t p.v).bind fun o => match o with
    | some v => .ok (cc.tableFor s a v)
    | none => .ok none

/-- or.rs:165-272 `_deconstruct_or_join`: `pats` are the patterns collected, `mask` says of the arms
passed which were collected. -/
def deconstruct (cc : CC) (s : Schema) (pats : List Pattern) (tbl : Option DTable) (mask : List Bool) :
    List OrClause → Res OrShape
  | [] => .ok (match pats with
    | [] => .empty
    | [p] => .unit p
    | ps => .simple ps)
  | .clause (.pattern p) :: arms =>
    (cc.tableForArm s p).bind fun ot => match ot with
      | none => deconstruct cc s pats tbl (mask ++ [false]) arms
      | some t =>
        let same := match pats with
          | [] => true
          | q :: _ => sameShape q p
        if same && tbl.all fun t' => decide (t' = t) then
          deconstruct cc s (pats ++ [p]) (some t) (mask ++ [true]) arms
        else .ok (.complex (mask ++ true :: arms.map fun _ => true))
  | _ :: arms => .ok (.complex (mask ++ true :: arms.map fun _ => true))

/-- The arms of a simple `or` (or.rs:375-400): each pattern applied to a copy of the template with the
same alias; those known to be empty are left out. -/
def simpleArms (tmpl : CC) (s : Schema) (al : Alias) (ps : List EPattern) : List CC :=
  (ps.map fun p => (tmpl.receptacle).applyForAlias s p al).filter fun c => !c.empty

/-- Evolve the patterns of a simple `or`, leaving out those that cannot match (or.rs:359-371). -/
def evolveAll (cc : CC) (s : Schema) : List Pattern → Res (List EPattern)
  | [] => .ok []
  | p :: ps => (cc.evolvePattern s p).bind fun o => (evolveAll cc s ps).bind fun r => .ok (match o with
    | some q => q :: r
    | none => r)

/-- or.rs:421-434: merge the column bindings of the first arm. -/
def mergeColumns (m : AMap Var (List QA)) : List (Var × List QA) → AMap Var (List QA)
  | [] => m
  | (x, cols) :: r => mergeColumns (AMap.insert m x ((AMap.get m x).getD [] ++ cols)) r

/-- or.rs:475-478: the types of the arms, broadened into an empty clause. -/
def foldTypes : List CC → CC → Res CC
  | [], acc => .ok acc
  | c :: cs, acc => (acc.broadenTypes c.known).bind fun acc' => foldTypes cs acc'

/-- mod.rs:728-735 `narrow_types` -/
def narrowAll (cc : CC) : List (Var × TypeSet) → CC
  | [] => cc
  | (x, ts) :: r => narrowAll (cc.narrowTypes x ts) r

/-- or.rs:345-513 `apply_simple_or_join`, `intersect`.  Having no pattern left, or no table for the
first one, is a panic. -/
def applySimpleOr (cc : CC) (s : Schema) (ps : List Pattern) (mentioned : List Var) : Res CC :=
  if cc.empty then .ok cc else
  (cc.evolveAll s ps).bind fun eps => match eps with
  | [] => .panic
  | p :: _ =>
    let tmpl := cc.template mentioned
    match cc.tableFor s p.a p.v with
    | none => .panic
    | some t =>
      let al : Alias := ⟨t, cc.counter⟩
      let cc1 := { cc with counter := cc.counter + 1 }
      match simpleArms tmpl s al eps with
      | [] => .ok cc1.markEmpty
      | first :: rest =>
        let cc2 := { cc1 with colb := mergeColumns cc1.colb first.colb }
        (foldTypes (first :: rest) {}).bind fun folded =>
          let wh := match rest with
            | [] => first.wheres
            | _ => [Constraint.or ((first :: rest).map fun c => .and c.wheres)]
          let cc3 := { cc2 with tables := cc2.tables ++ [al], wheres := cc2.wheres ++ wh }
          .ok (cc3.narrowAll folded.known)

/-- or.rs:704-743 `union_types` -/
def unionTypes (m : AMap Var TypeSet) (o : AMap Var TypeSet) : AMap Var TypeSet :=
  (m.map fun p => (p.1, match AMap.get o p.1 with
    | some ts => p.2.union ts
    | none => TypeSet.any)) ++
  (o.filter fun p => (AMap.get m p.1).isNone).map fun p => (p.1, TypeSet.any)

/-- or.rs:684-691: the columns of the union are bound to their variables. -/
def bindVars (cc : CC) (s : Schema) (al : Alias) : List Var → CC
  | [] => cc
  | x :: xs => bindVars (cc.bindColumn s (al, .var x) x) s al xs

/-- or.rs:606-700: the end of `apply_complex_or_join`, given the arms that are not known to be empty. -/
def joinArms (cc : CC) (s : Schema) (projected : List Var) (acc : List CC) : Res CC :=
  match acc with
  | [] => .ok cc.markEmpty
  | first :: rest =>
    let typeNeeded := projected.filter fun x => acc.any fun c => (c.knownType x).isNone
    let additional := rest.foldl (fun m c => unionTypes m c.known) first.known
    (cc.broadenTypes additional).bind fun cc1 =>
      let al : Alias := ⟨.computed, cc1.computed.length⟩
      let qs := armSelects projected typeNeeded acc
      let cc2 := match qs with
        | .ok qs => { cc1 with computed := cc1.computed ++ [STable.union qs al] }
        | _ => { cc1 with computed := cc1.computed ++ [STable.union [] al], panics := true }
      let cc3 := cc2.bindVars s al projected
      let cc4 := { cc3 with
        extracted := typeNeeded.foldl (fun m x => AMap.insert m x (al, .varTag x)) cc3.extracted }
      .ok { cc4 with tables := cc4.tables ++ [al] }

/-- not.rs:34-46: the bindings of the unified variables. -/
def notBindings (cc : CC) (tmpl : CC) : List Var → Res CC
  | [] => .ok tmpl
  | x :: xs => match AMap.get cc.vals x with
    | some v => notBindings cc { tmpl with vals := AMap.insert tmpl.vals x v } xs
    | none => match AMap.get cc.colb x with
      | some (q :: _) => notBindings cc { tmpl with colb := AMap.insert tmpl.colb x [q] } xs
      | some [] => .panic
      | none => .err .unboundVariable

/-- not.rs:51-87: the end of `apply_not_join`. -/
def joinNot (cc : CC) (t : CC) : Res CC :=
  let cc := { cc with counter := t.counter }
  if t.empty then .ok cc else
  t.finish.bind fun t =>
    if t.empty then .ok cc
    else if t.wheres.isEmpty then .ok cc
    else match t.toSelect [] false [] none with
      | .ok q => .ok (cc.addWhere (.notExists q))
      | _ => .ok { cc with panics := true }

/-! ### Clauses -/

/-- mod.rs:1125-1129 `mark_as_ref` -/
def markRef (cc : CC) : NonValue → CC
  | .var x => cc.constrainType x .ref
  | _ => cc

/-- The first pass of `apply_clauses` (mod.rs:1137-1154) -/
def firstPass (cc : CC) : List WhereClause → Res CC
  | [] => .ok cc
  | .typeAnno x t :: cs => (cc.applyTypeAnno x t).bind fun cc' => firstPass cc' cs
  | .pattern p :: cs => firstPass (((cc.markRef p.e).markRef p.a).markRef p.tx) cs
  | _ :: cs => firstPass cc cs

/-- mod.rs:1191-1197: a pattern outside of a run -/
def applyLonePattern (cc : CC) (k : Known) (p : Pattern) : Res CC :=
  (cc.evolvePattern k.schema p).bind fun o => match o with
    | some q => cc.applyPattern k q
    | none => .ok cc.markEmpty

mutual
/-- mod.rs:1189-1212 `apply_clause` -/
def applyClause (k : Known) (cc : CC) : WhereClause → Res CC
  | .pattern p => cc.applyLonePattern k p
  | .pred op args => match op with
    | some op => cc.applyInequality k.schema op args
    | none => .err .other
  | .whereFn op args b => cc.applyWhereFn k.schema op args b
  | .or unify arms =>
    if !validateOr unify arms then .err .other else
    match arms with
    | [] => .ok cc
    | [arm] =>
      if fullyUnified unify [arm] then applyOrClause k cc arm
      else (applyArms k (cc.template (dedup (unify.getD []))) cc.counter [true] [arm]).bind fun r =>
        ({ cc with counter := r.2 }).joinArms k.schema (dedup (unify.getD [])) r.1
    | a :: b :: arms =>
      if fullyUnified unify (a :: b :: arms) then
        (cc.deconstruct k.schema [] none [] (a :: b :: arms)).bind fun shape => match shape with
          | .empty => .ok cc.markEmpty
          | .unit p => cc.applyLonePattern k p
          | .simple ps => cc.applySimpleOr k.schema ps (dedup (OrClause.varsAll (a :: b :: arms)))
          | .complex mask =>
            let kept := (((a :: b :: arms).zip mask).filter (·.2)).map (·.1)
            let projected := dedup (OrClause.varsAll kept)
            (applyArms k (cc.template projected) cc.counter mask (a :: b :: arms)).bind fun r =>
              ({ cc with counter := r.2 }).joinArms k.schema projected r.1
      else (applyArms k (cc.template (dedup (unify.getD []))) cc.counter
          ((a :: b :: arms).map fun _ => true) (a :: b :: arms)).bind fun r =>
        ({ cc with counter := r.2 }).joinArms k.schema (dedup (unify.getD [])) r.1
  | .not unify cs =>
    if !validateNot unify cs then .err .other else
    let unified := dedup (match unify with
      | none => WhereClause.varsAll cs
      | some vs => vs)
    (cc.notBindings (cc.template unified) unified).bind fun tmpl =>
      (tmpl.firstPass cs).bind fun t0 => (applyRun k t0 [] cs).bind fun t => cc.joinNot t
  | .typeAnno x t => cc.applyTypeAnno x t
/-- The second pass of `apply_clauses` (mod.rs:1160-1186), with the run of patterns collected. -/
def applyRun (k : Known) (cc : CC) (pending : List EPattern) : List WhereClause → Res CC
  | [] => cc.applyEvolved k pending
  | .typeAnno _ _ :: cs => applyRun k cc pending cs
  | .pattern p :: cs => (cc.evolvePattern k.schema p).bind fun o => match o with
    | some q => applyRun k cc (pending ++ [q]) cs
    | none => .ok cc.markEmpty
  | c :: cs => (cc.applyEvolved k pending).bind fun cc' =>
      (applyClause k cc' c).bind fun cc'' => applyRun k cc'' [] cs
/-- or.rs:70-82 `apply_or_where_clause` -/
def applyOrClause (k : Known) (cc : CC) : OrClause → Res CC
  | .clause c => applyClause k cc c
  | .and cs => (cc.firstPass cs).bind fun cc' => applyRun k cc' [] cs
/-- or.rs:570-604: the arms the mask keeps, each applied to a copy of the template; those known to be
empty are left out.  The second component is the alias counter. -/
def applyArms (k : Known) (tmpl : CC) (counter : Nat) (mask : List Bool) :
    List OrClause → Res (List CC × Nat)
  | [] => .ok ([], counter)
  | arm :: arms =>
    if mask.headD false then
      (applyOrClause k { tmpl.receptacle with counter := counter } arm).bind fun c =>
        if c.empty then applyArms k tmpl c.counter mask.tail arms
        else c.finish.bind fun c => (applyArms k tmpl c.counter mask.tail arms).bind fun r =>
          .ok (c :: r.1, r.2)
    else applyArms k tmpl counter mask.tail arms
end

/-- mod.rs:1131-1187 `apply_clauses` -/
def applyClauses (k : Known) (cc : CC) (cs : List WhereClause) : Res CC :=
  (cc.firstPass cs).bind fun cc' => applyRun k cc' [] cs

/-! ### Queries (lib.rs) -/

/-- clauses/inputs.rs:25-28 `QueryInputs` -/
structure Inputs where
  types : AMap Var ValueType
  values : AMap Var TypedValue

/-- inputs.rs:52-60 `with_values`, 40-43 `with_value_sequence` -/
def Inputs.ofValues (vs : AMap Var TypedValue) : Inputs :=
  { types := vs.map fun p => (p.1, p.2.valueType), values := vs }

/-- mod.rs:263-298 `with_inputs_and_alias_counter` -/
def withInputs (inVars : List Var) (inputs : Inputs) (counter : Nat) : Res CC :=
  (keepKeys inputs.types inVars).bind fun types => (keepKeys inputs.values inVars).bind fun values =>
    .ok { counter := counter, inputs := inVars, vals := values
          known := types.map fun p => (p.1, TypeSet.one p.2) }

/-- lib.rs:138-158 `AlgebraicQuery` -/
structure Algebraic where
  find : FindSpec
  withVars : List Var
  named : List Var
  order : List (Bool × Col)
  limit : Limit
  cc : CC

/-- mod.rs:302-309 `derive_types_from_find_spec` -/
def deriveTypes (cc : CC) : List Element → CC
  | [] => cc
  | .pull x :: r => deriveTypes (cc.constrainType x .ref) r
  | _ :: r => deriveTypes cc r

/-- lib.rs:214-256 `validate_and_simplify_order` -/
def simplifyOrder (cc : CC) : List (Bool × Var) → Res (List (Bool × Col) × List Var)
  | [] => .ok ([], [])
  | (d, x) :: r =>
    if (AMap.get cc.vals x).isSome then simplifyOrder cc r
    else if (AMap.get cc.colb x).isNone then .err .unboundVariable
    else (simplifyOrder cc r).bind fun p =>
      .ok ((if (cc.knownType x).isNone then [(d, .varTag x), (d, .var x)] else [(d, .var x)]) ++ p.1,
        if x ∈ p.2 then p.2 else x :: p.2)

/-- lib.rs:258-299 `simplify_limit` -/
def simplifyLimit (cc : CC) : Limit → Res Limit
  | .var x => match AMap.get cc.vals x with
    | some (.long n) => if n ≤ 0 then .err .invalidLimit else .ok (.fixed n.toNat)
    | some _ => .err .invalidLimit
    | none => .ok (.var x)
  | l => .ok l

/-- lib.rs:301-349 `algebrize_with_inputs` -/
def algebrize (k : Known) (q : FindQuery) (counter : Nat) (inputs : Inputs) : Res Algebraic :=
  (withInputs q.inVars inputs counter).bind fun cc0 =>
  let cc1 := cc0.deriveTypes q.find.elements
  let cc2 := match q.limit with
    | .var x => cc1.narrowTypes x (TypeSet.one .long)
    | _ => cc1
  (applyClauses k cc2 q.clauses).bind fun cc3 =>
  cc3.finish.bind fun cc =>
  (match q.order with
    | none => Res.ok ([], [])
    | some o => cc.simplifyOrder o).bind fun od =>
  (cc.simplifyLimit (if q.find.isUnitLimited then .fixed 1 else q.limit)).bind fun limit =>
  .ok { find := q.find, withVars := q.withVars, named := od.2, order := od.1, limit := limit, cc := cc }

/-- lib.rs:191-195 `unbound_variables` -/
def Algebraic.unbound (q : Algebraic) : List Var :=
  q.cc.inputs.filter fun x => (AMap.get q.cc.vals x).isNone

/-- lib.rs:372-414 `from_parsed_query` -/
def fromParsed (q : FindQuery) : Res FindQuery :=
  if !decide q.inVars.Nodup then .err .other
  else if !decide q.withVars.Nodup then .err .other
  else match q.limit with
    | .var x => if x ∈ q.inVars then .ok q else .err .other
    | _ => .ok q

end CC
end Mentat
