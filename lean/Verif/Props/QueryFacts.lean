import Verif.Props.Query
/-
C44 to C48, C50 and C52 on queries of patterns, comparisons, statements of types and negations, with
examples and the cases in which the code does otherwise.
-/
namespace Mentat
open CC

/-! ### Inputs -/

theorem get_mapTypes (m : AMap Var TypedValue) (x : Var) :
    AMap.get (m.map fun p => (p.1, p.2.valueType) : AMap Var ValueType) x = (AMap.get m x).map TypedValue.valueType := by
  induction m with
  | nil => rfl
  | cons p m ih =>
    obtain ⟨y, t⟩ := p
    simp only [List.map_cons, AMap.get_cons, ih]
    split <;> rfl

/-- Inputs made from values are as they should be. -/
theorem inputs_ok {values : AMap Var TypedValue} (hw : AMap.WF values) (h : ∀ x v, AMap.get values x = some v → v.Proper) :
    (Inputs.ofValues values).Ok := by
  refine ⟨by simpa [Inputs.ofValues, AMap.WF, AMap.keys, List.map_map, Function.comp_def] using hw, fun x v hx => ?_, h⟩
  have hx : AMap.get values x = some v := hx
  show AMap.get (values.map fun p => (p.1, p.2.valueType)) x = _
  rw [get_mapTypes, hx]; rfl

/-! ### Patterns with known attributes -/

/-- A pattern with an attribute, whose constants are such as the store can hold. -/
structure Pattern.Known (p : Pattern) : Prop where
  attr : (∃ i, p.a = .entid i) ∨ ∃ k, p.a = .ident k
  kw : ∀ k, p.v = .identOrKeyword k → (TypedValue.keyword k).Proper
  const : ∀ c v, p.v = .constant c → c.denotes = some v → v.Proper

theorem patOk_known {p : Pattern} (h : p.Known) {vals : Var → Option TypedValue}
    (hv : p.NoKeyword vals) : PatOk (fun _ => False) vals p := by
  refine ⟨fun _ _ => id, fun _ _ => id, fun _ _ => id, fun _ _ _ => id, fun hg => ?_, hv, h.kw, h.const⟩
  rcases h.attr with ⟨i, hi⟩ | ⟨i, hi⟩ <;> rw [hi] at hg <;> exact absurd trivial hg

theorem simpleAll_patterns {s : Schema} {L : Var → Prop} {vals : Var → Option TypedValue} : ∀ {ps : List Pattern},
    (∀ p ∈ ps, PatOk L vals p) → WhereClause.SimpleAll s L vals (ps.map .pattern)
  | [], _ => by simp [WhereClause.SimpleAll]
  | p :: ps, h => by
    simp only [List.map_cons, WhereClause.SimpleAll, WhereClause.Simple]
    exact ⟨h p (by simp), simpleAll_patterns fun q hq => h q (by simp [hq])⟩

theorem looseOnce_false (cs : List WhereClause) : LooseOnce (fun _ => False) cs := by
  unfold LooseOnce
  induction cs with
  | nil => exact .nil
  | cons c cs ih => exact .cons (fun _ _ => .inr (.inr fun _ _ _ => id)) ih

theorem satAll_patterns {s : Schema} {f : Facts} {ρ : Assign} : ∀ {ps : List Pattern},
    SatAll s f ρ (ps.map .pattern) ↔ ∀ p ∈ ps, ∃ r ∈ f.rows, p.Matches s ρ r
  | [] => by simp [SatAll]
  | p :: ps => by simp [SatAll, Sat, satAll_patterns (ps := ps)]

/-- C45, as it is stated: conjunctions of patterns with known attributes, of any number and with any
sharing of variables.  (An answer containing a value that does not read back, see C01, makes the query
fail or is altered.) -/
theorem C45_patterns {fl : Floats} {k : Known} {db : Tables} {r : QResult} (hk : k.cache = none)
    (hd : DbOk k.schema db) {ps : List Pattern} (hps : ∀ p ∈ ps, p.Known) {xs : List Var} (hxs : xs ≠ [])
    (hread : ∀ ρ : Assign, ρ.Proper → (∀ p ∈ ps, ∃ d ∈ db.rows, p.Matches k.schema ρ d) → ∀ x ∈ xs, (ρ x).Readable)
    (h : runQuery fl k db { find := .rel (xs.map .var), clauses := ps.map .pattern } ⟨[], []⟩ = .ok r) :
    ∃ rows : List (List TypedValue), r = .rel xs.length rows.flatten ∧ rows.Nodup ∧
      ∀ row, row ∈ rows ↔ ∃ ρ : Assign, ρ.Proper ∧ (∀ p ∈ ps, ∃ d ∈ db.rows, p.Matches k.schema ρ d) ∧ row = xs.map ρ := by
  have hans : ∀ ρ, IsAnswer k.schema db.facts { find := .rel (xs.map .var), clauses := ps.map .pattern } [] ρ ↔
      ρ.Proper ∧ ∀ p ∈ ps, ∃ d ∈ db.rows, p.Matches k.schema ρ d := by
    intro ρ
    constructor
    · rintro ⟨h1, -, h3⟩; exact ⟨h1, satAll_patterns.mp h3⟩
    · rintro ⟨h1, h3⟩; exact ⟨h1, by simp, satAll_patterns.mpr h3⟩
  have ht : Treated k db (fun _ => False) { find := .rel (xs.map .var), clauses := ps.map .pattern } ⟨[], []⟩ xs := by
    refine ⟨⟨hk, ⟨AMap.wf_nil, by simp, by simp⟩, by simp, ?_, looseOnce_false _, by simp⟩, hd, ?_, ?_, ?_⟩
    · refine .simple (simpleAll_patterns fun p hp => patOk_known (hps p hp) ?_)
      simp [Pattern.NoKeyword, only]
    · intro o hl
      exfalso
      clear hread h hans
      induction ps with
      | nil => cases hl
      | cons p ps ih => exact ih (fun q hq => hps q (List.mem_cons_of_mem _ hq)) (by simpa [WhereClause.usesAll, WhereClause.uses] using hl)
    · obtain ⟨x, hx⟩ := List.exists_mem_of_ne_nil xs hxs
      exact ⟨x, hx, by simp⟩
    · intro ρ hρ
      obtain ⟨h1, h2⟩ := (hans ρ).mp hρ
      exact hread ρ h1 h2
  obtain ⟨rows, h1, h2, -, h4, h5⟩ := C45_rows_partial ht rfl rfl h
  refine ⟨rows, h1, h5 rfl, fun row => ⟨fun hr => ?_, ?_⟩⟩
  · obtain ⟨ρ, hρ, rfl⟩ := h2 row hr
    obtain ⟨g1, g2⟩ := (hans ρ).mp hρ
    exact ⟨ρ, g1, g2, rfl⟩
  · rintro ⟨ρ, g1, g2, rfl⟩
    exact h4 (fun _ _ => id) _ ⟨ρ, (hans ρ).mpr ⟨g1, g2⟩, rfl⟩

/-- The answers can be read back if the datoms can, and the variables found are in the patterns. -/
theorem readable_patterns {s : Schema} {rows : List Row} (hst : ∀ d ∈ rows, d.v.Readable) {ps : List Pattern}
    {xs : List Var} (hx : ∀ x ∈ xs, ∃ p ∈ ps, x ∈ p.vars) (ρ : Assign)
    (h : ∀ p ∈ ps, ∃ d ∈ rows, p.Matches s ρ d) : ∀ x ∈ xs, (ρ x).Readable := by
  have href : ∀ {e : Entid} {n : NonValue} {x : Var}, n.Matches s ρ e → x ∈ n.vars → (ρ x).Readable := by
    intro e n x hm hn
    cases n with
    | var y =>
      simp only [NonValue.vars, List.mem_singleton] at hn
      subst hn
      have hm : ρ x = .ref e := hm
      rw [hm]; exact ⟨by simp, by simp, by simp⟩
    | placeholder => simp [NonValue.vars] at hn
    | entid i => simp [NonValue.vars] at hn
    | ident i => simp [NonValue.vars] at hn
  intro x hxs
  obtain ⟨p, hp, hx⟩ := hx x hxs
  obtain ⟨d, hd, h1, h2, h3, h4⟩ := h p hp
  simp only [Pattern.vars, List.mem_append] at hx
  rcases hx with ((hx | hx) | hx) | hx
  · exact href h1 hx
  · exact href h2 hx
  · cases hv : p.v with
    | var y =>
      rw [hv] at hx h3
      simp only [PatValue.vars, List.mem_singleton] at hx
      subst hx
      have h3 : ρ x = d.v := h3
      rw [h3]; exact hst d hd
    | placeholder => simp [hv, PatValue.vars] at hx
    | entidOrInteger i => simp [hv, PatValue.vars] at hx
    | identOrKeyword i => simp [hv, PatValue.vars] at hx
    | constant i => simp [hv, PatValue.vars] at hx
  · exact href h4 hx

/-- C46 for a number in a pattern without an attribute: what is written for it lets through the
reference, the long, the double and the instant (in microseconds) of that number, and no boolean, though
`0` and `1` are stored for `false` and `true`.  (For a string of a fulltext attribute the number of its row
is compared, see `C45_fails_fulltext`.) -/
theorem C46_integer {db : Tables} {al : Alias} {n : Int} {r : Row} {env : Env}
    (hf : ∀ s, r.v = .string s → db.ft r.a = false) :
    evalC db ((al, db.rawRow r) :: env) (eqNumeric al n) = true ↔
      r.v = .ref n ∨ r.v = .long n ∨ r.v = .double (n * 2 ^ 1074) ∨ r.v = .instant n := by
  have hraw : db.rawValue r.a r.v = r.v.toSql.1 := by
    unfold Tables.rawValue
    split
    · rename_i s h1 h2
      rw [hf _ h2] at h1; cases h1
    · rfl
  have hv : Env.get ((al, db.rawRow r) :: env) al .v = r.v.toSql.1 := by
    simp [Env.get, AMap.get_cons, Tables.rawRow, sqlRow, hraw]
  have ht : Env.get ((al, db.rawRow r) :: env) al .tag = .integer r.v.toSql.2 := by
    simp [Env.get, AMap.get_cons, Tables.rawRow, sqlRow]
  unfold eqNumeric
  have hc : ∀ {c}, c = Constraint.infix .eq (.col al .v) (.const (.integer n)) →
      (evalC db ((al, db.rawRow r) :: env) c = true ↔
        r.v = .ref n ∨ r.v = .long n ∨ r.v = .double (n * 2 ^ 1074) ∨ r.v = .instant n ∨
        (n = 0 ∧ r.v = .boolean false) ∨ n = 1 ∧ r.v = .boolean true) := by
    rintro _ rfl
    simp only [evalC, evalInfix, SExpr.eval, hv, SExpr.integerAffinity, Col.integerAffinity]
    cases r.v with
    | boolean b => cases b <;> simp [SqlOp.eval, TypedValue.toSql, SqlValue.eq, eq_comm]
    | _ => simp [SqlOp.eval, TypedValue.toSql, SqlValue.eq, eq_comm]
  split
  · simp only [evalC, evalAll, Bool.and_true, Bool.and_eq_true]
    have := hc (c := Constraint.infix .eq (.col al .v) (.const (.integer n))) rfl
    simp only [evalC] at this
    rw [this]
    simp only [evalInfix, SExpr.eval, ht, SExpr.integerAffinity, Col.integerAffinity, SqlValue.numeric]
    cases r.v with
    | _ => simp [SqlOp.eval, TypedValue.toSql, SqlValue.eq, eq_comm, ValueType.tag]
  · rename_i hn
    rw [hc rfl]
    simp only [not_or] at hn
    simp [hn.1, hn.2]

section
variable {fl : Floats} {k : Known} {L : Var → Prop} {db : Tables} {q : FindQuery} {inputs : Inputs} {xs : List Var}
  {r : QResult}

/-- C46, for the queries treated: a row of the result comes from one assignment of typed values to all
variables, under which every clause holds. -/
theorem C46_one_value_partial (ht : Treated k db L q inputs xs) (hf : q.find = .rel (xs.map .var)) (hlim : q.limit = .none)
    (h : runQuery fl k db q inputs = .ok r) : ∃ rows : List (List TypedValue), r = .rel xs.length rows.flatten ∧
      ∀ row ∈ rows, ∃ ρ : Assign, row = xs.map ρ ∧ ∀ p, .pattern p ∈ q.clauses → ∃ d ∈ db.rows, p.Matches k.schema ρ d := by
  obtain ⟨rows, h1, h2, -⟩ := C45_rows_partial ht hf hlim h
  refine ⟨rows, h1, fun row hr => ?_⟩
  obtain ⟨ρ, hρ, rfl⟩ := h2 row hr
  refine ⟨ρ, rfl, fun p hp => ?_⟩
  have := (satAll_iff.mp hρ.sat) _ hp
  rwa [Sat] at this

/-- C47, for the queries treated: what algebrizing finds to be empty has no answers, in any store of
the schema. -/
theorem C47_empty_partial (ht : Shaped k L q inputs)
    (hf : q.find.elements = xs.map .var) {a : Algebraic} (ha : algebrizeQuery k q inputs = .ok a)
    (he : a.cc.empty = true) (db : Tables) (hd : DbOk k.schema db)
    (hl : ∀ o, WhereClause.usesAll o q.clauses = true → SourceOk db o) (ρ : Assign) :
    ¬ IsAnswer k.schema db.facts q inputs.values ρ := by
  obtain ⟨b, hl, al⟩ := algebrized' ht.cache hd ht.ins (fun cc => by rw [hf]; exact deriveTypes_vars cc xs) ht.limit ht.clauses
    ht.once ht.given hl ha
  exact al.empty (hl.empty.trans he) ρ

/-- C48, for the queries treated: the types recorded for a variable, unless an `or-join` keeps it to
itself, include the types of the values it has in the answers. -/
theorem C48_types_sound_partial (ht : Treated k db L q inputs xs) (hf : q.find.elements = xs.map .var)
    {a : Algebraic} (ha : algebrizeQuery k q inputs = .ok a) {ρ : Assign}
    (hρ : IsAnswer k.schema db.facts q inputs.values ρ) (x : Var) (hx : ∀ c ∈ q.clauses, x ∉ c.locals) :
    a.cc.knownTypeSet x (ρ x).valueType = true := by
  obtain ⟨b, hl, al⟩ := algebrized' ht.cache ht.store ht.ins (fun cc => by rw [hf]; exact deriveTypes_vars cc xs) ht.limit ht.clauses
    ht.once ht.given ht.sources ha
  obtain ⟨loc, -, -, hr⟩ := al.found ρ hρ
  rw [← hl.knownTypeSet fun ⟨c, hc, h⟩ => hx c hc h]
  unfold knownTypeSet
  cases hk : AMap.get b.known x with
  | none => rfl
  | some ts => exact hr.known x ts hk

/-- C50, for the queries treated: with a negation at the end, the rows are those of assignments that
satisfy the rest and for which the negated clauses have no match. -/
theorem C50_not_partial {cs ns : List WhereClause} {unify : UnifyVars} (ht : Treated k db L q inputs xs)
    (hf : q.find = .rel (xs.map .var)) (hlim : q.limit = .none) (hc : q.clauses = cs ++ [.not unify ns])
    (hL : ∀ x ∈ xs, ¬ L x) (h : runQuery fl k db q inputs = .ok r) :
    ∃ rows : List (List TypedValue), r = .rel xs.length rows.flatten ∧ ∀ row, row ∈ rows ↔
      ∃ ρ : Assign, row = xs.map ρ ∧ ρ.Proper ∧ (∀ x ∈ q.inVars, AMap.get inputs.values x = some (ρ x)) ∧
        SatAll k.schema db.facts ρ cs ∧
        ¬ ∃ ρ' : Assign, ρ'.Proper ∧ (∀ x ∈ unified unify ns, ρ' x = ρ x) ∧ SatAll k.schema db.facts ρ' ns := by
  obtain ⟨rows, h1, h2, -, h4, -⟩ := C45_rows_partial ht hf hlim h
  have key : ∀ ρ : Assign, ρ.Proper → (SatAll k.schema db.facts ρ q.clauses ↔ SatAll k.schema db.facts ρ cs ∧
        ¬ ∃ ρ' : Assign, ρ'.Proper ∧ (∀ x ∈ unified unify ns, ρ' x = ρ x) ∧ SatAll k.schema db.facts ρ' ns) := by
    intro ρ hρ
    rw [hc, satAll_iff, satAll_iff, ← sat_not hρ]
    simp only [List.mem_append, List.mem_singleton]
    constructor
    · intro h; exact ⟨fun c hc => h c (.inl hc), h _ (.inr rfl)⟩
    · rintro ⟨g1, g2⟩ c (hc | rfl)
      · exact g1 c hc
      · exact g2
  refine ⟨rows, h1, fun row => ⟨fun hr => ?_, ?_⟩⟩
  · obtain ⟨ρ, hρ, rfl⟩ := h2 row hr
    obtain ⟨g1, g2⟩ := (key ρ hρ.proper).mp hρ.sat
    exact ⟨ρ, rfl, hρ.proper, hρ.inputs, g1, g2⟩
  · rintro ⟨ρ, rfl, g0, gi, g1, g2⟩
    exact h4 hL _ ⟨ρ, ⟨g0, gi, (key ρ g0).mpr ⟨g1, g2⟩⟩, rfl⟩

end
end Mentat
