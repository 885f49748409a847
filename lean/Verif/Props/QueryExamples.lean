import Verif.Props.QueryFacts
/-
A small store for the examples of C44 to C52, and the cases in which the code does otherwise than the
properties say.
-/
namespace Mentat
open CC
namespace QueryEx

def kw (s : String) : Keyword := ⟨"f".toList, s.toList⟩

def attr' (t : ValueType) (ft : Bool) : Attribute :=
  { valueType := t, multival := false, unique := none, index := false, fulltext := ft, component := false, noHistory := false }

def attributes : List (Entid × String × Attribute) :=
  [(10, "long", attr' .long false), (11, "name", attr' .string false), (12, "knows", attr' .ref false),
   (13, "flag", attr' .boolean false), (14, "size", attr' .double false), (15, "text", attr' .string true)]

def schema : Schema :=
  { entidMap := attributes.map fun p => (p.1, kw p.2.1), identMap := attributes.map fun p => (kw p.2.1, p.1),
    attributeMap := attributes.map fun p => (p.1, p.2.2) }

def datom (e a : Entid) (v : TypedValue) : Row := { e := e, a := a, v := v, tx := 1000, avet := false, uniq := false }

def store : Tables :=
  { rows := [datom 20 10 (.long 1), datom 20 11 (.string "s".toList), datom 20 12 (.ref 21), datom 20 13 (.boolean true),
      datom 21 10 (.long 21), datom 21 12 (.ref 20), datom 21 14 (.double (2 ^ 1074)), datom 22 10 (.long 1),
      datom 22 15 (.string "hello".toList)],
    log := [], ft := fun a => decide (a = 15), ftId := fun _ => 1 }

def floats : Floats := ⟨fun _ => .null, fun _ => .null⟩
def x : Var := "x".toList
def y : Var := "y".toList
def z : Var := "z".toList
def w : Var := "w".toList

/-- `[?e :f/a v]` -/
def pat (e : Var) (a : String) (v : PatValue) : WhereClause :=
  .pattern { e := .var e, a := .ident (kw a), v := v, tx := .placeholder }
/-- `[?e ?a ?v]` -/
def open' (e a v : Var) : WhereClause := .pattern { e := .var e, a := .var a, v := .var v, tx := .placeholder }

def find (xs : List Var) (cs : List WhereClause) : FindQuery := { find := .rel (xs.map .var), clauses := cs }
def run (q : FindQuery) (values : AMap Var TypedValue) : Res QResult :=
  runQuery floats ⟨schema, none⟩ store q (Inputs.ofValues values)

theorem store_ok : DbOk schema store := by
  have hattr : ∀ a at_, schema.attr a = some at_ → (a, at_) ∈ schema.attributeMap := fun a at_ h => AMap.get_some_mem h
  refine ⟨?_, ?_, ?_, ?_⟩
  · intro r hr
    simp only [store, List.mem_cons, List.not_mem_nil, or_false] at hr
    rcases hr with rfl | rfl | rfl | rfl | rfl | rfl | rfl | rfl | rfl <;> exact ⟨_, rfl, rfl⟩
  · intro r hr
    simp only [store, List.mem_cons, List.not_mem_nil, or_false] at hr
    rcases hr with rfl | rfl | rfl | rfl | rfl | rfl | rfl | rfl | rfl <;> trivial
  · intro a at_ h
    have := hattr a at_ h
    simp only [schema, attributes, List.map_cons, List.map_nil, List.mem_cons, List.not_mem_nil, or_false, Prod.mk.injEq] at this
    rcases this with ⟨rfl, rfl⟩ | ⟨rfl, rfl⟩ | ⟨rfl, rfl⟩ | ⟨rfl, rfl⟩ | ⟨rfl, rfl⟩ | ⟨rfl, rfl⟩ <;> rfl
  · intro a at_ h hf
    have := hattr a at_ h
    simp only [schema, attributes, List.map_cons, List.map_nil, List.mem_cons, List.not_mem_nil, or_false, Prod.mk.injEq] at this
    rcases this with ⟨rfl, rfl⟩ | ⟨rfl, rfl⟩ | ⟨rfl, rfl⟩ | ⟨rfl, rfl⟩ | ⟨rfl, rfl⟩ | ⟨rfl, rfl⟩ <;> first | rfl | cases hf

/-- The patterns of the example have known attributes. -/
theorem pat_known (e : Var) (a : String) (v : Var) : Pattern.Known { e := .var e, a := .ident (kw a), v := .var v, tx := .placeholder } :=
  ⟨.inr ⟨_, rfl⟩, by simp, by simp⟩

/-- The names of those known by the one known: two patterns that share a variable. -/
theorem C45_example : run (find [x, y, z] [pat x "knows" (.var y), pat y "knows" (.var z)]) [] =
    .ok (.rel 3 [.ref 20, .ref 21, .ref 20, .ref 21, .ref 20, .ref 21]) := by decide +kernel

/-- The patterns of the example meet the hypotheses of `C45_patterns`. -/
theorem C45_example_hyps : DbOk schema store ∧ (∀ d ∈ store.rows, d.v.Readable) ∧
    ∀ p ∈ ([{ e := .var x, a := .ident (kw "knows"), v := .var y, tx := .placeholder },
      { e := .var y, a := .ident (kw "knows"), v := .var z, tx := .placeholder }] : List Pattern), p.Known := by
  refine ⟨store_ok, ?_, ?_⟩
  · intro d hd
    simp only [store, List.mem_cons, List.not_mem_nil, or_false] at hd
    rcases hd with rfl | rfl | rfl | rfl | rfl | rfl | rfl | rfl | rfl <;>
      exact ⟨by simp [datom], by simp [datom], by simp [datom]⟩
  · intro p hp
    simp only [List.mem_cons, List.not_mem_nil, or_false] at hp
    rcases hp with rfl | rfl <;> exact pat_known _ _ _

/-- Two untyped patterns, a comparison and a negation. -/
theorem C50_example : run (find [x, y] [pat x "long" (.var y), .pred (some .lt) [.var y, .int 30],
      .not none [pat x "name" .placeholder]]) [] =
    .ok (.rel 2 [.ref 21, .long 21, .ref 22, .long 1]) := by decide +kernel

theorem C50_example_treated : Treated ⟨schema, none⟩ store (fun _ => False)
    (find [x, y] [pat x "long" (.var y), .pred (some .lt) [.var y, .int 30], .not none [pat x "name" .placeholder]])
    (Inputs.ofValues []) [x, y] := by
  have hp : ∀ (vals : Var → Option TypedValue), (∀ x, vals x = none) → ∀ a v, (v = .placeholder ∨ ∃ y, v = .var y) →
      PatOk (fun _ => False) vals { e := .var x, a := .ident (kw a), v := v, tx := .placeholder } := by
    intro vals hv a v h
    refine patOk_known ⟨.inr ⟨_, rfl⟩, ?_, ?_⟩ ?_
    · rintro k rfl; rcases h with h | ⟨y, h⟩ <;> cases h
    · rintro c w rfl; rcases h with h | ⟨y, h⟩ <;> cases h
    · simp [Pattern.NoKeyword, hv]
  have hno : ∀ x, only (find [x, y] []).inVars (AMap.get (Inputs.ofValues []).values) x = none := by
    intro x; simp [only, find]
  refine ⟨⟨rfl, inputs_ok AMap.wf_nil (by simp), by simp [find], ?_, looseOnce_false _, by simp [find]⟩, store_ok,
    by simp [find, WhereClause.usesAll, WhereClause.uses, pat], ⟨x, by simp, by simp [find]⟩, ?_⟩
  · refine .simple ?_
    simp only [find, pat, WhereClause.SimpleAll, WhereClause.Simple, and_true]
    refine ⟨hp _ (fun z => by simp [only]) _ _ (.inr ⟨_, rfl⟩), fun _ _ => id, fun _ _ => id, ?_, looseOnce_false _, rfl, ?_⟩
    · exact ⟨_, List.mem_singleton.mpr rfl, trivial⟩
    · exact hp _ (fun z => by simp [only]) _ _ (.inl rfl)
  · intro ρ hρ
    have hs := hρ.sat
    simp only [find, SatAll, pat, Sat] at hs
    refine readable_patterns (s := schema) C45_example_hyps.2.1
      (ps := [{ e := .var x, a := .ident (kw "long"), v := .var y, tx := .placeholder }]) ?_ ρ ?_
    · intro v hv
      refine ⟨_, List.mem_singleton.mpr rfl, ?_⟩
      simpa [Pattern.vars, NonValue.vars, PatValue.vars] using hv
    · intro p hp
      rw [List.mem_singleton] at hp
      subst hp
      exact hs.1

/-- A variable without a known type: `:f/size` of 21 is `1.0` and `:f/long` of 20 is `1`, and there are
answers of each of the types. -/
theorem C45_example_loose : run (find [x, y] [open' x w y, pat x "size" .placeholder]) [] =
    .ok (.rel 2 [.ref 21, .long 21, .ref 21, .ref 20, .ref 21, .double (2 ^ 1074)]) := by decide +kernel

/-! ### Where the code does otherwise -/

/-- C45 with a variable of unknown type: `DISTINCT` takes the double `1.0` for the long `1`. -/
theorem C45_fails_distinct :
    run (find [y] [open' x w y, .typeAnno y (some .double)]) [] = .ok (.rel 1 [.double (2 ^ 1074)]) ∧
    ∃ vs, run (find [y] [open' x w y]) [] = .ok (.rel 1 vs) ∧ TypedValue.double (2 ^ 1074) ∉ vs :=
  ⟨by decide +kernel, [.long 1, .string "s".toList, .ref 21, .boolean true, .long 21, .ref 20, .string "hello".toList],
    by decide +kernel, by decide⟩

/-- C45 with all variables found given: no datom is looked for.  There is no entity with a long of 7. -/
theorem C45_fails_given : run { find [x] [open' y w z] with inVars := [x] } [(x, .long 7)] = .ok (.rel 1 [.long 7]) ∧
    runQuery floats ⟨schema, none⟩ { store with rows := [] } { find [x] [open' y w z] with inVars := [x] }
      (Inputs.ofValues [(x, .long 7)]) = .ok (.rel 1 [.long 7]) :=
  ⟨by decide +kernel, by decide +kernel⟩

/-- C45, ordered by a variable that is not found: answers are repeated. -/
theorem C45_fails_order :
    run { find [x] [open' x w y, pat x "name" .placeholder] with order := some [(true, y)] } [] =
      .ok (.rel 1 [.ref 20, .ref 20, .ref 20, .ref 20]) := by decide +kernel

/-- C45 with an integer and no attribute: the row number of a fulltext value matches. -/
theorem C45_fails_fulltext : runQuery floats ⟨schema, none⟩ { store with rows := [datom 22 15 (.string "hello".toList)] }
      (find [x] [.pattern { e := .var x, a := .placeholder, v := .entidOrInteger 1, tx := .placeholder }])
      (Inputs.ofValues []) = .ok (.rel 1 [.ref 22]) := by decide +kernel

/-- C46: a boolean and a double, and a boolean and a long, are joined. -/
theorem C46_fails :
    run (find [x, y, z] [pat y "flag" (.var z), open' x w z]) [] =
      .ok (.rel 3 [.ref 20, .ref 20, .boolean true, .ref 21, .ref 20, .boolean true, .ref 22, .ref 20, .boolean true]) ∧
    ∀ d ∈ store.rows, d.e = 22 → d.v ≠ .boolean true :=
  ⟨by decide +kernel, by
    intro d hd he
    simp only [store, List.mem_cons, List.not_mem_nil, or_false] at hd
    rcases hd with rfl | rfl | rfl | rfl | rfl | rfl | rfl | rfl | rfl <;> simp [datom] at he ⊢⟩

/-- C46: a number in a pattern without an attribute matches an instant of that many microseconds. -/
theorem C46_fails_instant :
    runQuery floats ⟨{ schema with attributeMap := (16, attr' .instant false) :: schema.attributeMap }, none⟩
      { store with rows := [datom 22 16 (.instant 5)] }
      (find [x] [.pattern { e := .var x, a := .placeholder, v := .entidOrInteger 5, tx := .placeholder }])
      (Inputs.ofValues []) = .ok (.rel 1 [.ref 22]) := by decide +kernel

/-- C46: a number does not match a boolean. -/
theorem C46_integer_example :
    runQuery floats ⟨schema, none⟩ { store with rows := [datom 20 13 (.boolean true), datom 21 10 (.long 1)] }
      (find [x] [.pattern { e := .var x, a := .placeholder, v := .entidOrInteger 1, tx := .placeholder }])
      (Inputs.ofValues []) = .ok (.rel 1 [.ref 21]) := by decide +kernel

/-- C50: a negation that mentions no attribute is ignored. -/
theorem C50_fails : run (find [x] [pat x "name" .placeholder,
      .not none [.pattern { e := .placeholder, a := .placeholder, v := .placeholder, tx := .placeholder }]]) [] =
    .ok (.rel 1 [.ref 20]) := by decide +kernel

/-- C44: with fewer inputs than variables algebrizing panics; a variable bound by `ground` need not be
given. -/
theorem C44_fails : run { find [z] [pat x "long" (.var z)] with inVars := [x, y] } [(x, .ref 20)] = .panic ∧
    run { find [y] [.whereFn .ground [.int 5] (.scalar y)] with inVars := [y] } [] = .ok (.rel 1 [.long 5]) :=
  ⟨by decide +kernel, by decide +kernel⟩

end QueryEx
end Mentat
