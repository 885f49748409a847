import Verif.Proofs.QueryWf
import Verif.Proofs.KernelRfl
import Verif.Props.QueryTotal
/-
C75: the text of a query is read as the query it writes.
C76: the parts of a query may come in any order, and each at most once.
C77: whatever text is accepted as a query is a well-formed query, and the parser always returns.
-/
namespace Mentat
namespace QParse
open Edn EdnParse

/-! ### C75 -/

/-- C75, for queries all of whose values read back (C07: no floats, no text with quotes or backslashes)
and whose functions are not named like the words `type`, `the` and `pull`: whatever query a form
denotes, with any number of clauses nested to any depth, the text of the form is read as that query. -/
theorem C75_reads_partial {v : Edn} {q : Query} (h : QueryForm v q) (hr : Readable v) :
    parseQuery (print v) = .ok q [] := by
  obtain ⟨l, ps, hv, hp, ha⟩ := h
  have hne : ps ≠ [] := by
    rintro rfl
    exact absurd ((ha.find q.find).mpr rfl) (by simp)
  rw [parseQuery_reads hv hp hne hr, (fromParts_assembled ps q).mpr ha]

/-- A form denotes one query. -/
theorem C75_unambiguous {v : Edn} {q q' : Query} (h : QueryForm v q) (h' : QueryForm v q') (hr : Readable v) : q = q' := by
  have h1 := C75_reads_partial h hr
  have h2 := C75_reads_partial h' hr
  rw [h1] at h2
  cases h2; rfl

/-- From the text of a query to its answers: after any history of transactions, the text of a query of
patterns with known attributes is answered with one row for each assignment under which every pattern
is matched by a datom that was asserted and not retracted since. -/
theorem C75_answers_partial {db : Db} (hr : ReachData db) (fl : CC.Floats) (ftId : Text → Int)
    {v : Edn} {q : Query} (h : QueryForm v q) (hv : Readable v) {ps : List Pat} {xs : List Var}
    (hq : q = { find := .rel (xs.map .var), withVars := [], inVars := [], limit := .none, clauses := ps.map .pattern, order := none })
    (hps : ∀ p ∈ ps, p.lower.Known ∧ p.lower.named = false ∧ ∀ i, p.lower.v ≠ .constant (.bigInteger i)) (hne : xs ≠ [])
    (hn : xs.Nodup) (hxs : ∀ x ∈ xs, ∃ p ∈ ps, x ∈ p.lower.vars) :
    ∃ rows : List (List TypedValue),
      ((parseFind (print v)).bind fun q => CC.runQuery fl ⟨db.schema, none⟩ (db.tables ftId) q ⟨[], []⟩) =
        .ok (.rel xs.length rows.flatten) ∧ rows.Nodup ∧
      ∀ row, row ∈ rows ↔ ∃ ρ : Assign, ρ.Proper ∧ (∀ p ∈ ps, p.lower.Asserted db.schema db.store.log ρ) ∧ row = xs.map ρ := by
  have hcl : ∀ ps : List Pat, Clause.lowerAll (ps.map .pattern) = (ps.map Pat.lower).map WhereClause.pattern := by
    intro ps
    induction ps with
    | nil => rfl
    | cons p ps ih => simp only [List.map_cons, Clause.lowerAll, Clause.lower, ih]
  have hp : parseFind (print v) = .ok { find := .rel (xs.map .var), clauses := (ps.map Pat.lower).map .pattern } := by
    rw [parseFind, C75_reads_partial h hv, hq]
    simp [Query.toFind, hcl, Find.lower, Elem.lower, Function.comp_def]
  rw [hp]
  obtain ⟨rows, h1, h2, h3⟩ := C73_answers_partial hr fl ftId (ps := ps.map Pat.lower)
    (by intro p hp; obtain ⟨p', hp', rfl⟩ := List.mem_map.mp hp; exact hps p' hp') hne hn
    (by intro x hx; obtain ⟨p, hp, h⟩ := hxs x hx; exact ⟨_, List.mem_map_of_mem hp, h⟩)
  refine ⟨rows, h1, h2, fun row => ?_⟩
  rw [h3]
  simp only [List.forall_mem_map]

/-! ### An example -/

/-- A check of `Readable`. -/
def nameB : Text → Bool
  | c :: r => isInitial c && r.all isSubsequent
  | [] => false

def nsCharsB : Text → Bool
  | [] => true
  | c :: r => (isSubsequent c || (c == '.' && r.head?.any isSubsequent)) && nsCharsB r

def nsB : Text → Bool
  | c :: r => isInitial c && nsCharsB r
  | [] => false

def symB (s : Text) : Bool :=
  (nameB s || s == ['.', '.', '.'] || s == ['.']) && !(s.head?.any isDigit) && !(['n', 'i', 'l'].isPrefixOf s) &&
  !(['t', 'r', 'u', 'e'].isPrefixOf s) && !(['f', 'a', 'l', 's', 'e'].isPrefixOf s)

def kwB (k : NName) : Bool :=
  if k.boundary = 0 then nameB k.components
  else nsB (k.components.take k.boundary) && nameB (k.components.drop (k.boundary + 1)) &&
    (match NName.namespaced (k.components.take k.boundary) (k.components.drop (k.boundary + 1)) with
     | .ok k' => k'.components == k.components && k'.boundary == k.boundary
     | _ => false)

mutual
def readB : Edn → Bool
  | .nil => true
  | .boolean _ => true
  | .integer n => decide (-(2 ^ 63) ≤ n) && decide (n < 2 ^ 63)
  | .text s => s.all fun c => c != '"' && c != '\\'
  | .plainSymbol s => symB s
  | .keyword k => kwB k
  | .vector l => readAllB l
  | .list l => readAllB l
  | _ => false
def readAllB : List Edn → Bool
  | [] => true
  | v :: l => readB v && readAllB l
end

theorem nameB_ok {s : Text} (h : nameB s = true) : ValidName s := by
  cases s with
  | nil => simp [nameB] at h
  | cons c r => simp [nameB] at h; exact ⟨c, r, rfl, h.1, h.2⟩

theorem nsCharsB_ok : ∀ {s : Text}, nsCharsB s = true → NsChars s
  | [], _ => trivial
  | c :: r, h => by
    simp only [nsCharsB, Bool.and_eq_true, Bool.or_eq_true, beq_iff_eq] at h
    refine ⟨?_, nsCharsB_ok h.2⟩
    rcases h.1 with h1 | ⟨h1, h2⟩
    · exact .inl h1
    · cases r with
      | nil => simp at h2
      | cons d t => exact .inr ⟨h1, d, t, rfl, by simpa using h2⟩

theorem nsB_ok {s : Text} (h : nsB s = true) : ValidNs s := by
  cases s with
  | nil => simp [nsB] at h
  | cons c r => simp [nsB] at h; exact ⟨c, r, rfl, h.1, nsCharsB_ok h.2⟩

theorem symB_ok {s : Text} (h : symB s = true) : Readable (.plainSymbol s) := by
  simp only [symB, Bool.and_eq_true, Bool.or_eq_true, Bool.not_eq_true', beq_iff_eq] at h
  obtain ⟨⟨⟨⟨h1, h2⟩, h3⟩, h4⟩, h5⟩ := h
  refine .plainSymbol _ ?_ ⟨?_, ?_, ?_, ?_⟩
  · rcases h1 with (h1 | h1) | h1
    · exact Or.inl (nameB_ok h1)
    · exact Or.inr (Or.inl h1)
    · exact Or.inr (Or.inr h1)
  · rintro c r rfl; simpa using h2
  · rw [← List.isPrefixOf_iff_prefix]; simp [h3]
  · rw [← List.isPrefixOf_iff_prefix]; simp [h4]
  · rw [← List.isPrefixOf_iff_prefix]; simp [h5]

theorem kwB_ok {k : NName} (h : kwB k = true) : Readable (.keyword k) := by
  unfold kwB at h
  split at h
  · rename_i hb
    have hv := nameB_ok h
    refine .plainKeyword _ k.components ?_ hv
    obtain ⟨c, r, hc, -, -⟩ := hv
    obtain ⟨cs, b⟩ := k
    simp only at hb hc
    subst hb hc
    simp [NName.plain]
  · simp only [Bool.and_eq_true] at h
    obtain ⟨⟨h1, h2⟩, h3⟩ := h
    split at h3
    · rename_i k' hk
      simp only [Bool.and_eq_true, beq_iff_eq] at h3
      have : k' = k := by cases k; cases k'; simp only at h3; rw [h3.1, h3.2]
      subst this
      exact .nsKeyword _ _ _ hk (nsB_ok h1) (nameB_ok h2)
    · simp at h3

mutual
theorem readB_ok : ∀ v : Edn, readB v = true → Readable v
  | .nil, _ => .nil
  | .boolean b, _ => .boolean b
  | .integer n, h => by
    simp only [readB, Bool.and_eq_true, decide_eq_true_eq] at h
    exact .integer _ h.1 h.2
  | .text s, h => by
    simp only [readB, List.all_eq_true, Bool.and_eq_true, bne_iff_ne, ne_eq] at h
    exact .text _ h
  | .plainSymbol s, h => symB_ok (by simpa only [readB] using h)
  | .keyword k, h => kwB_ok (by simpa only [readB] using h)
  | .vector l, h => .vector _ (readAllB_ok l (by simpa only [readB] using h))
  | .list l, h => .list _ (readAllB_ok l (by simpa only [readB] using h))
  | .bigInteger _, h => by simp [readB] at h
  | .float _, h => by simp [readB] at h
  | .instant _, h => by simp [readB] at h
  | .uuid _, h => by simp [readB] at h
  | .nsSymbol _, h => by simp [readB] at h
  | .set _, h => by simp [readB] at h
  | .map _, h => by simp [readB] at h
theorem readAllB_ok : ∀ l : List Edn, readAllB l = true → ∀ v ∈ l, Readable v
  | [], _ => by simp
  | v :: l, h => by
    simp only [readAllB, Bool.and_eq_true] at h
    have h1 := readB_ok v h.1
    have h2 := readAllB_ok l h.2
    intro w hw
    rcases List.mem_cons.mp hw with rfl | hw
    · exact h1
    · exact h2 w hw
end

section Example
def vE (s : String) : Edn := .plainSymbol s.toList
/-- `:f/name` -/
def fE (s : String) : NName := ⟨'f' :: '/' :: s.toList, 1⟩

/-- `[:find ?e (max ?x) :where (or-join [?e] [?e :f/_knows ?w] (and [?e :f/long 5] [(type ?e :f/t)]))
(not [(< ?x 3)]) [(ground [1 2]) [?x ...]] :order (desc ?x) :in ?w :limit 10]` -/
def exampleForm : Edn := .vector
  [kwdE "find", vE "?e", .list [symE "max", vE "?x"],
   kwdE "where",
     .list [symE "or-join", .vector [vE "?e"],
       .vector [vE "?e", .keyword (fE "_knows"), vE "?w"],
       .list [symE "and", .vector [vE "?e", .keyword (fE "long"), .integer 5],
         .vector [.list [symE "type", vE "?e", .keyword (fE "t")]]]],
     .list [symE "not", .vector [.list [symE "<", vE "?x", .integer 3]]],
     .vector [.list [symE "ground", .vector [.integer 1, .integer 2]], .vector [vE "?x", symE "..."]],
   kwdE "order", .list [symE "desc", vE "?x"],
   kwdE "in", vE "?w",
   kwdE "limit", .integer 10]

def e' : Text := ['?', 'e']
def x' : Text := ['?', 'x']
def w' : Text := ['?', 'w']

def exampleQuery : Query :=
  { find := .rel [.var e', .aggregate "max".toList [.var x']]
    withVars := []
    inVars := [w']
    limit := .fixed 10
    order := some [(false, x')]
    clauses :=
      [.or (some [e'])
        [.clause (.pattern ⟨none, .var w', .ident (fE "knows"), .var e', .placeholder⟩),
         .and [.pattern ⟨none, .var e', .ident (fE "long"), .entidOrInteger 5, .placeholder⟩, .typeAnno e' (fE "t")]],
       .not none [.pred "<".toList [.var x', .int 3]],
       .whereFn "ground".toList [.vec [.int 1, .int 2]] (.coll x')] }

/-- The hypotheses of `C75_reads_partial` hold of a query with every kind of part and clause. -/
theorem C75_example : QueryForm exampleForm exampleQuery ∧ Readable exampleForm := by
  have hv : ∀ s, IsVar ('?' :: s) := fun s => ⟨s, rfl⟩
  have h1 : IsVar e' := ⟨_, rfl⟩
  have h2 : IsVar x' := ⟨_, rfl⟩
  have h3 : IsVar w' := ⟨_, rfl⟩
  refine ⟨⟨_, [.find (.rel [.var e', .aggregate "max".toList [.var x']]), .clauses exampleQuery.clauses, .order [(false, x')],
    .inVars [w'], .limit (.fixed 10)], rfl, ?_, ?_⟩, readB_ok _ (by decide)⟩
  · refine PartsForm.cons (v := [kwdE "find", vE "?e", .list [symE "max", vE "?x"]]) (.find (FindForm.rel (l := [.var e', .aggregate "max".toList [.var x']]) (by simp) ?_)) ?_
    · intro e he
      simp only [List.mem_cons, List.not_mem_nil, or_false] at he
      rcases he with rfl | rfl
      · exact hv _
      · exact ⟨⟨by decide, by decide, by decide⟩, hv _, trivial⟩
    refine PartsForm.cons (v := [kwdE "where", _, _, _]) (.clauses (.cons ?_ (.cons ?_ (.cons ?_ .nil))) (by simp [exampleQuery])) ?_
    · refine ClauseForm.orJoin (xs := [e']) (by simp) (by simp) (by simpa using h1) (.cons (.clause (.pattern ?_)) (.cons (.and (.cons ?_ (.cons ?_ .nil)) (by simp)) .nil)) (by simp)
      · exact PatForm.reversed none (.var e') (.var w') .placeholder "f".toList "knows".toList (fE "knows") (fE "_knows") _
          (by simp) (hv _) (hv _) (hv _) trivial (by decide) (by decide) (Or.inr ⟨rfl, Or.inl rfl⟩)
      · exact .pattern (PatForm.full none (.var e') (.ident (fE "long")) (.entidOrInteger 5) .placeholder _ (by simp) (hv _) trivial trivial
          trivial (by rintro k ⟨⟩; decide) (Or.inr ⟨rfl, Or.inl rfl⟩))
      · exact .typeAnno (hv _)
    · exact .not (.cons (ClauseForm.pred (f := "<".toList) (args := [.var x', .int 3]) ⟨by decide, by decide, by decide⟩ ⟨hv _, trivial, trivial⟩) .nil) (by simp)
    · exact ClauseForm.whereFn (f := "ground".toList) (args := [.vec [.int 1, .int 2]]) (b := .coll x') ⟨by decide, by decide, by decide⟩
        ⟨⟨by simp, trivial, trivial, trivial⟩, trivial⟩ ⟨by simp [Binding.vars], by simpa [Binding.vars] using h2⟩
    refine PartsForm.cons (v := [kwdE "order", _]) (.order (.cons (.desc (hv _)) .nil) (by simp)) ?_
    refine PartsForm.cons (v := [kwdE "in", _]) (PartForm.inVars (xs := [w']) (by simp) (by simpa using h3)) ?_
    exact PartsForm.cons (v := [kwdE "limit", _]) (PartForm.limitFixed (n := 10) (by decide)) .nil
  · constructor <;> simp [exampleQuery, eq_comm, Part.ctorIdx]

/-- The hypotheses of `C75_answers_partial` hold of `[:find ?e ?v :where [?e :x/one ?v]]` after a history. -/
theorem C75_answers_example : ∃ db : Db, ReachData db ∧ ∃ rows : List (List TypedValue),
    ((parseFind (print (.vector [kwdE "find", vE "?e", vE "?v", kwdE "where",
      .vector [vE "?e", .keyword ⟨"x/one".toList, 1⟩, vE "?v"]]))).bind fun q =>
        CC.runQuery QueryEx.floats ⟨db.schema, none⟩ (db.tables fun _ => 1) q ⟨[], []⟩) = .ok (.rel 2 rows.flatten) := by
  obtain ⟨db, hr, -⟩ := C73_example
  have h1 : IsVar "?e".toList := ⟨_, rfl⟩
  have h2 : IsVar "?v".toList := ⟨_, rfl⟩
  obtain ⟨rows, h, -⟩ := C75_answers_partial hr QueryEx.floats (fun _ => 1)
    (v := .vector [kwdE "find", vE "?e", vE "?v", kwdE "where", .vector [vE "?e", .keyword ⟨"x/one".toList, 1⟩, vE "?v"]])
    (ps := [⟨none, .var "?e".toList, .ident ⟨"x/one".toList, 1⟩, .var "?v".toList, .placeholder⟩])
    (xs := ["?e".toList, "?v".toList])
    ⟨_, [.find (.rel [.var "?e".toList, .var "?v".toList]), .clauses _], rfl,
      .cons (v := [kwdE "find", vE "?e", vE "?v"])
        (.find (FindForm.rel (l := [.var "?e".toList, .var "?v".toList]) (by simp) (by
          intro e he
          simp only [List.mem_cons, List.not_mem_nil, or_false] at he
          rcases he with rfl | rfl
          · exact h1
          · exact h2)))
        (.cons (v := [kwdE "where", _]) (.clauses (.cons (.pattern (PatForm.full none (.var "?e".toList)
          (.ident ⟨"x/one".toList, 1⟩) (.var "?v".toList) .placeholder _ (by simp) h1 trivial h2 trivial
          (by rintro k ⟨⟩; decide) (Or.inr ⟨rfl, Or.inl rfl⟩))) .nil) (by simp)) .nil),
      by constructor <;> simp [eq_comm, Part.ctorIdx]⟩
    (readB_ok _ (by decide)) rfl
    (by
      intro p hp
      rw [List.mem_singleton] at hp
      subst hp
      exact ⟨⟨.inr ⟨_, rfl⟩, by simp [Pat.lower, Val.lower], by simp [Pat.lower, Val.lower]⟩, rfl, by simp [Pat.lower, Val.lower]⟩)
    (by simp) (by decide)
    (by
      intro x hx
      refine ⟨_, List.mem_singleton.mpr rfl, ?_⟩
      simp only [List.mem_cons, List.not_mem_nil, or_false] at hx
      rcases hx with rfl | rfl <;> simp [Pat.lower, Val.lower, NonVal.lower, Pattern.vars, NonValue.vars, PatValue.vars])
  exact ⟨db, hr, rows, h⟩

end Example

/-! ### Where C75 fails -/

/-- `[:find ?e :where [?e :f/kind :baz]]`: a keyword without namespace in the value place is taken for the
transaction. -/
theorem C75_fails_keyword : parseQuery "[:find ?e :where [?e :f/kind :baz]]".toList =
    .ok { find := .rel [.var "?e".toList], withVars := [], inVars := [], limit := .none, order := none,
          clauses := [.pattern ⟨none, .var "?e".toList, .ident ⟨"f/kind".toList, 1⟩, .placeholder, .ident ⟨"baz".toList, 0⟩⟩] } [] := by
  kernel_rfl

def kindSchema : Schema :=
  { entidMap := [(16, QueryEx.kw "kind")], identMap := [(QueryEx.kw "kind", 16)],
    attributeMap := [(16, QueryEx.attr' .keyword false)] }

def kindStore : Tables :=
  { rows := [QueryEx.datom 20 16 (.keyword ⟨[], "baz".toList⟩)], log := [], ft := fun _ => false, ftId := fun _ => 1 }

/-- So the entity that has this value is not found, though asking for any value gives the
entity, whose one value it is. -/
theorem C75_fails_keyword_rows :
    ((parseFind "[:find ?e :where [?e :f/kind :baz]]".toList).bind fun q =>
      CC.runQuery QueryEx.floats ⟨kindSchema, none⟩ kindStore q ⟨[], []⟩) = .ok (.rel 1 []) ∧
    ((parseFind "[:find ?e :where [?e :f/kind ?v]]".toList).bind fun q =>
      CC.runQuery QueryEx.floats ⟨kindSchema, none⟩ kindStore q ⟨[], []⟩) = .ok (.rel 1 [.ref 20]) := by
  have h1 : parseFind "[:find ?e :where [?e :f/kind :baz]]".toList = .ok (QueryEx.find ["?e".toList]
      [.pattern { e := .var "?e".toList, a := .ident (QueryEx.kw "kind"), v := .placeholder, tx := .ident ⟨[], "baz".toList⟩ }]) := by kernel_rfl
  have h2 : parseFind "[:find ?e :where [?e :f/kind ?v]]".toList = .ok (QueryEx.find ["?e".toList]
      [QueryEx.pat "?e".toList "kind" (.var "?v".toList)]) := by kernel_rfl
  rw [h1, h2]
  exact ⟨by kernel_rfl, by kernel_rfl⟩

/-- A predicate named like a word of the grammar: `[(type? :f/t)]` is the annotation of a variable `?`. -/
theorem C75_fails_word : parseQuery "[:find ?e :where [(type? :f/t)]]".toList =
    .ok { find := .rel [.var "?e".toList], withVars := [], inVars := [], limit := .none, order := none,
          clauses := [.typeAnno "?".toList ⟨"f/t".toList, 1⟩] } [] := by
  kernel_rfl

/-- Pulling an attribute backwards, `(pull ?e [:f/_knows])`, is an aggregate function named `pull`. -/
theorem C75_fails_pull : parseQuery "[:find (pull ?e [:f/_knows]) :where [?e _ _]]".toList =
    .ok { find := .rel [.aggregate "pull".toList [.var "?e".toList, .vec [.kw ⟨"f/_knows".toList, 1⟩]]], withVars := [], inVars := [],
          limit := .none, order := none,
          clauses := [.pattern ⟨none, .var "?e".toList, .placeholder, .placeholder, .placeholder⟩] } [] := by
  kernel_rfl

/-- Placeholders need no space between them, so `[__ ?x]` binds three places. -/
theorem C75_fails_places : parseQuery "[:find ?x :where [(f) [__ ?x]]]".toList =
    .ok { find := .rel [.var "?x".toList], withVars := [], inVars := [], limit := .none, order := none,
          clauses := [.whereFn "f".toList [] (.tuple [none, none, some "?x".toList])] } [] := by
  kernel_rfl

/-! ### C76 -/

/-- C76: a list of parts makes a query just when `:find` and `:where` are there and no part is there
twice; the query has what the parts say, and nothing where there is no part. -/
theorem C76_parts (ps : List Part) (q : Query) : fromParts ps = some q ↔ Assembled ps q := fromParts_assembled ps q

/-- The order of the parts does not matter. -/
theorem C76_order {ps ps' : List Part} (h : ps.Perm ps') : fromParts ps = fromParts ps' := by
  have key : ∀ {ps ps' : List Part}, ps.Perm ps' → ∀ q, fromParts ps = some q → fromParts ps' = some q := by
    intro ps ps' h q hq
    rw [fromParts_assembled] at hq ⊢
    refine ⟨?_, ?_, ?_, ?_, ?_, ?_, ?_⟩
    · simpa only [h.mem_iff] using hq.find
    · simpa only [h.mem_iff] using hq.clauses
    · simpa only [h.mem_iff] using hq.withVars
    · simpa only [h.mem_iff] using hq.inVars
    · simpa only [h.mem_iff] using hq.limit
    · simpa only [h.mem_iff] using hq.order
    · exact h.pairwise hq.once (fun h => h.symm)
  cases h1 : fromParts ps with
  | some q => exact (key h q h1).symm
  | none =>
    cases h2 : fromParts ps' with
    | none => rfl
    | some q => rw [key h.symm q h2] at h1; cases h1

/-- The hypothesis holds of the parts of the example in two orders. -/
theorem C76_example : fromParts [.clauses exampleQuery.clauses, .inVars [w'], .find exampleQuery.find] =
    fromParts [.find exampleQuery.find, .inVars [w'], .clauses exampleQuery.clauses] ∧
    (fromParts [.clauses exampleQuery.clauses, .inVars [w'], .find exampleQuery.find]).isSome :=
  ⟨C76_order (List.reverse_perm _).symm, rfl⟩

/-! ### C77 -/

/-- C77: whatever the text, the parser returns, and a query it accepts is well formed. -/
theorem C77_wellformed_partial (s : Text) :
    parseQuery s ≠ .stuck ∧ ∀ q rest, parseQuery s = .ok q rest → q.Wf := by
  have h := parseQuery_below s
  constructor
  · intro e; rw [e] at h; exact h
  · intro q rest e; rw [e] at h; exact h.2

/-- The claim is about some texts: the example is accepted. -/
theorem C77_example : ∃ s q, parseQuery s = .ok q [] ∧ q.clauses.length = 3 :=
  ⟨_, _, C75_reads_partial C75_example.1 C75_example.2, rfl⟩

/-- The parser does not always return a query or an error: a reversed attribute without name, and a limit
beyond 64 bits, are panics. -/
theorem C77_fails_panic :
    parseQuery "[:find ?e :where [?e :f/_ ?x]]".toList = .panic ∧
    parseQuery "[:find ?e :where [?e :f/a ?x] :limit 9223372036854775808]".toList = .panic :=
  ⟨by kernel_rfl, by kernel_rfl⟩

/-- The attributes of the patterns made are not all forward: `:f/__a` is reversed to `:f/_a`. -/
theorem C77_fails_attribute : parseQuery "[:find ?e :where [?e :f/__a ?x]]".toList =
    .ok { find := .rel [.var "?e".toList], withVars := [], inVars := [], limit := .none, order := none,
          clauses := [.pattern ⟨none, .var "?x".toList, .ident ⟨"f/_a".toList, 1⟩, .var "?e".toList, .placeholder⟩] } [] := by
  kernel_rfl

end QParse
end Mentat
