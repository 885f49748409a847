import Verif.Props.QueryTotal
/-
C101: the order and repetition of the clauses of a query and the names of its variables do not matter.
C102: queries of patterns are monotone.
-/
namespace Mentat
open CC

/-! ### C101 -/

/-- Two results are the same rows, in whatever order. -/
def SameRows (r r' : QResult) : Prop :=
  ∃ (n : Nat) (rows rows' : List (List TypedValue)), r = .rel n rows.flatten ∧ r' = .rel n rows'.flatten ∧
    rows.Perm rows' ∧ ∀ row ∈ rows, row.length = n

theorem sameRows_of {r r' : QResult} {xs : List Var} {P : List TypedValue → Prop}
    (hP : ∀ row, P row → row.length = xs.length)
    (h : ∃ rows : List (List TypedValue), r = .rel xs.length rows.flatten ∧ rows.Nodup ∧ ∀ row, row ∈ rows ↔ P row)
    (h' : ∃ rows : List (List TypedValue), r' = .rel xs.length rows.flatten ∧ rows.Nodup ∧ ∀ row, row ∈ rows ↔ P row) :
    SameRows r r' := by
  obtain ⟨rows, h1, h2, h3⟩ := h
  obtain ⟨rows', h1', h2', h3'⟩ := h'
  exact ⟨xs.length, rows, rows', h1, h1', (List.perm_ext_iff_of_nodup h2 h2').2 fun row => by rw [h3, h3'],
    fun row hr => hP row ((h3 row).1 hr)⟩

section
variable {fl : Floats} {k : Known} {L L' : Var → Prop} {db : Tables} {q : FindQuery} {inputs : Inputs} {xs : List Var}
  {r r' : QResult}

/-- C101.  Of two queries of patterns, comparisons, annotations, negations and disjunctions that differ only in the order and
the repetition of clauses, and that are both of the kinds treated in C45, the answers are the same.  (`L`, `L'`: variables
whose type is not known; of those found it has to be.) -/
theorem C101_order_partial {cs : List WhereClause} (ht : Treated k db L q inputs xs)
    (ht' : Treated k db L' { q with clauses := cs } inputs xs)
    (hcs : ∀ c, c ∈ q.clauses ↔ c ∈ cs)
    (hf : q.find = .rel (xs.map .var)) (hlim : q.limit = .none) (ho : q.order = none)
    (hL : ∀ x ∈ xs, ¬ L x) (hL' : ∀ x ∈ xs, ¬ L' x)
    (h : runQuery fl k db q inputs = .ok r) (h' : runQuery fl k db { q with clauses := cs } inputs = .ok r') : SameRows r r' := by
  obtain ⟨rows, h1, h2, -, h3, h4⟩ := C45_rows_partial ht hf hlim h
  obtain ⟨rows', h1', h2', -, h3', h4'⟩ := C45_rows_partial ht' hf hlim h'
  have hans : ∀ row, Answers k.schema db.facts { q with clauses := cs } inputs.values xs row ↔
      Answers k.schema db.facts q inputs.values xs row := by
    intro row
    refine exists_congr fun ρ => and_congr_left fun _ => ?_
    constructor
    · rintro ⟨a, b, c⟩
      exact ⟨a, b, satAll_iff.2 fun x hx => satAll_iff.1 c x ((hcs x).1 hx)⟩
    · rintro ⟨a, b, c⟩
      exact ⟨a, b, satAll_iff.2 fun x hx => satAll_iff.1 c x ((hcs x).2 hx)⟩
  refine sameRows_of (P := Answers k.schema db.facts q inputs.values xs) ?_
    ⟨rows, h1, h4 ho, fun row => ⟨h2 row, h3 hL row⟩⟩
    ⟨rows', h1', h4' ho, fun row => ⟨fun hr => (hans row).1 (h2' row hr), fun hr => h3' hL' row ((hans row).2 hr)⟩⟩
  rintro row ⟨ρ, -, rfl⟩
  simp

end

/-! ### Renaming -/

def NonValue.rename (σ : Var → Var) : NonValue → NonValue
  | .var x => .var (σ x)
  | p => p

def PatValue.rename (σ : Var → Var) : PatValue → PatValue
  | .var x => .var (σ x)
  | p => p

def Pattern.rename (σ : Var → Var) (p : Pattern) : Pattern :=
  ⟨p.named, p.e.rename σ, p.a.rename σ, p.v.rename σ, p.tx.rename σ⟩

theorem NonValue.rename_matches {s : Schema} {ρ : Assign} {σ : Var → Var} {e : Entid} (p : NonValue) :
    (p.rename σ).Matches s ρ e ↔ p.Matches s (ρ ∘ σ) e := by
  cases p <;> rfl

theorem PatValue.rename_matches {s : Schema} {ρ : Assign} {σ : Var → Var} {v : TypedValue} (p : PatValue) :
    (p.rename σ).Matches s ρ v ↔ p.Matches s (ρ ∘ σ) v := by
  cases p <;> rfl

theorem Pattern.rename_asserted {s : Schema} {log : List LogRow} {ρ : Assign} {σ : Var → Var} (p : Pattern) :
    (p.rename σ).Asserted s log ρ ↔ p.Asserted s log (ρ ∘ σ) := by
  simp only [Pattern.Asserted, Pattern.rename, NonValue.rename_matches, PatValue.rename_matches]

theorem Pattern.rename_vars {σ : Var → Var} (p : Pattern) : (p.rename σ).vars = p.vars.map σ := by
  obtain ⟨_, e, a, v, tx⟩ := p
  simp only [Pattern.vars, Pattern.rename, List.map_append]
  congr 1
  · congr 1
    · congr 1
      · cases e <;> rfl
      · cases a <;> rfl
    · cases v <;> rfl
  · cases tx <;> rfl

/-- What is asked of the patterns of a query. -/
def Askable (ps : List Pattern) : Prop :=
  ∀ p ∈ ps, p.Known ∧ p.named = false ∧ ∀ i, p.v ≠ .constant (.bigInteger i)

/-- The query that finds `xs` such that `ps`. -/
def asking (xs : List Var) (ps : List Pattern) : FindQuery := { find := .rel (xs.map .var), clauses := ps.map .pattern }

/-- C101, for patterns, without the assumption that the queries are answered: after any history, the same patterns in any
order and repeated, with the variables renamed, give the same rows. -/
theorem C101_patterns_partial {db : Db} (hr : ReachData db) (fl : Floats) (ftId : Text → Int) {ps ps' : List Pattern}
    {xs : List Var} {σ τ : Var → Var} (hps : Askable ps) (hne : xs ≠ []) (hn : xs.Nodup) (hxs : ∀ x ∈ xs, ∃ p ∈ ps, x ∈ p.vars)
    (hσ : ∀ x, τ (σ x) = x) (hps' : ∀ p, p ∈ ps' ↔ ∃ p₀ ∈ ps, p = p₀.rename σ) :
    ∃ r r', runQuery fl ⟨db.schema, none⟩ (db.tables ftId) (asking xs ps) ⟨[], []⟩ = .ok r ∧
      runQuery fl ⟨db.schema, none⟩ (db.tables ftId) (asking (xs.map σ) ps') ⟨[], []⟩ = .ok r' ∧ SameRows r r' := by
  have hinj : ∀ x y, σ x = σ y → x = y := fun x y h => by rw [← hσ x, h, hσ]
  obtain ⟨rows, h1, h2, h3⟩ := C73_answers_partial hr fl ftId hps hne hn hxs
  have hask : Askable ps' := by
    intro p hp
    obtain ⟨p₀, hp₀, rfl⟩ := (hps' p).1 hp
    obtain ⟨k1, k2, k3⟩ := hps p₀ hp₀
    refine ⟨?_, k2, ?_⟩
    · obtain ⟨_, _, a, v, _⟩ := p₀
      refine ⟨?_, fun k hk => k1.kw k ?_, fun c w hc hd => k1.const c w ?_ hd⟩
      · rcases k1.attr with ⟨i, rfl⟩ | ⟨i, rfl⟩
        · exact .inl ⟨i, rfl⟩
        · exact .inr ⟨i, rfl⟩
      · cases v <;> simp_all [Pattern.rename, PatValue.rename]
      · cases v <;> simp_all [Pattern.rename, PatValue.rename]
    · intro i hi
      refine k3 i ?_
      obtain ⟨_, _, _, v, _⟩ := p₀
      cases v <;> simp_all [Pattern.rename, PatValue.rename]
  obtain ⟨rows', h1', h2', h3'⟩ := C73_answers_partial (xs := xs.map σ) hr fl ftId hask (by simpa using hne)
    (by
      rw [List.nodup_iff_pairwise_ne, List.pairwise_map]
      exact hn.imp fun h e => h (hinj _ _ e)) (by
      intro x hx
      obtain ⟨y, hy, rfl⟩ := List.mem_map.1 hx
      obtain ⟨p, hp, hv⟩ := hxs y hy
      exact ⟨p.rename σ, (hps' _).2 ⟨p, hp, rfl⟩, by rw [Pattern.rename_vars]; exact List.mem_map_of_mem hv⟩)
  refine ⟨_, _, h1, h1', ?_⟩
  rw [List.length_map]
  refine sameRows_of (xs := xs) (P := fun row => ∃ ρ : Assign, ρ.Proper ∧ (∀ p ∈ ps, p.Asserted db.schema db.store.log ρ) ∧ row = xs.map ρ)
    (by rintro row ⟨ρ, -, -, rfl⟩; simp) ⟨rows, rfl, h2, h3⟩ ⟨rows', rfl, h2', fun row => ?_⟩
  rw [h3']
  constructor
  · rintro ⟨ρ, g1, g2, rfl⟩
    refine ⟨ρ ∘ σ, fun x => g1 _, fun p hp => ?_, by simp⟩
    rw [← Pattern.rename_asserted]
    exact g2 _ ((hps' _).2 ⟨p, hp, rfl⟩)
  · rintro ⟨ρ, g1, g2, rfl⟩
    have hc : (ρ ∘ τ) ∘ σ = ρ := by
      funext x
      simp [hσ]
    refine ⟨ρ ∘ τ, fun x => g1 _, fun p hp => ?_, by rw [List.map_map, hc]⟩
    obtain ⟨p₀, hp₀, rfl⟩ := (hps' p).1 hp
    rw [Pattern.rename_asserted, hc]
    exact g2 p₀ hp₀

mutual
def FnArg.rename (σ : Var → Var) : FnArg → FnArg
  | .var x => .var (σ x)
  | .vec l => .vec (FnArg.renameAll σ l)
  | a => a
def FnArg.renameAll (σ : Var → Var) : List FnArg → List FnArg
  | [] => []
  | a :: as => a.rename σ :: FnArg.renameAll σ as
end

def Binding.rename (σ : Var → Var) : Binding → Binding
  | .scalar x => .scalar (σ x)
  | .coll x => .coll (σ x)
  | .rel l => .rel (l.map (·.map σ))
  | .tuple l => .tuple (l.map (·.map σ))

mutual
/-- A clause with its variables renamed, those local to it too. -/
def WhereClause.rename (σ : Var → Var) : WhereClause → WhereClause
  | .pattern p => .pattern (p.rename σ)
  | .pred op args => .pred op (FnArg.renameAll σ args)
  | .whereFn op args b => .whereFn op (FnArg.renameAll σ args) (b.rename σ)
  | .or u arms => .or (u.map (·.map σ)) (WhereClause.renameAny σ arms)
  | .not u cs => .not (u.map (·.map σ)) (WhereClause.renameAll σ cs)
  | .typeAnno x t => .typeAnno (σ x) t
def WhereClause.renameAll (σ : Var → Var) : List WhereClause → List WhereClause
  | [] => []
  | c :: cs => c.rename σ :: WhereClause.renameAll σ cs
def WhereClause.renameArm (σ : Var → Var) : OrClause → OrClause
  | .clause c => .clause (c.rename σ)
  | .and cs => .and (WhereClause.renameAll σ cs)
def WhereClause.renameAny (σ : Var → Var) : List OrClause → List OrClause
  | [] => []
  | a :: as => WhereClause.renameArm σ a :: WhereClause.renameAny σ as
end

theorem FnArg.rename_denotes {s : Schema} {ρ : Assign} {σ : Var → Var} {v : TypedValue} (a : FnArg) :
    (a.rename σ).Denotes s ρ v ↔ a.Denotes s (ρ ∘ σ) v := by
  cases a <;> simp only [FnArg.rename, FnArg.Denotes, Function.comp]

theorem holds?_rename {ρ : Assign} {σ : Var → Var} {v : TypedValue} (o : Option (Option Var)) :
    Holds? ρ v (o.map (·.map σ)) ↔ Holds? (ρ ∘ σ) v o := by
  rcases o with _ | _ | x <;> rfl

theorem Binding.rename_vars (σ : Var → Var) (b : Binding) : (b.rename σ).vars = b.vars.map (·.map σ) := by
  cases b <;> rfl

theorem fnSat_rename {s : Schema} {f : Facts} {ρ : Assign} {σ : Var → Var} (op : FnOp) (args : List FnArg) (b : Binding) :
    FnSat s f ρ op (FnArg.renameAll σ args) (b.rename σ) ↔ FnSat s f (ρ ∘ σ) op args b := by
  cases op <;> rcases args with _ | ⟨a1, _ | ⟨a2, _ | ⟨a3, _ | ⟨a4, as⟩⟩⟩⟩ <;>
    simp only [FnArg.renameAll, FnSat, Binding.rename_vars, List.getElem?_map, List.head?_map, holds?_rename, FnArg.rename_denotes]

theorem agree_rename {σ τ : Var → Var} (hσ : ∀ x, τ (σ x) = x) {ρ : Assign} {vs : List Var} {P P' : Assign → Prop}
    (h : ∀ ρ', P' ρ' ↔ P (ρ' ∘ σ)) :
    (∃ ρ' : Assign, ρ'.Proper ∧ (∀ x ∈ vs.map σ, ρ' x = ρ x) ∧ P' ρ') ↔
      ∃ ρ' : Assign, ρ'.Proper ∧ (∀ x ∈ vs, ρ' x = (ρ ∘ σ) x) ∧ P ρ' := by
  constructor
  · rintro ⟨ρ', h1, h2, h3⟩
    exact ⟨ρ' ∘ σ, fun x => h1 _, fun x hx => h2 _ (List.mem_map_of_mem hx), (h ρ').1 h3⟩
  · rintro ⟨ρ', h1, h2, h3⟩
    have hc : (ρ' ∘ τ) ∘ σ = ρ' := by
      funext x
      simp [hσ]
    refine ⟨ρ' ∘ τ, fun x => h1 _, fun x hx => ?_, (h _).2 (by rw [hc]; exact h3)⟩
    obtain ⟨y, hy, rfl⟩ := List.mem_map.1 hx
    simpa [hσ] using h2 y hy

mutual
theorem sat_rename {s : Schema} {f : Facts} {σ τ : Var → Var} (hσ : ∀ x, τ (σ x) = x) (ρ : Assign) : ∀ (c : WhereClause),
    Sat s f ρ (c.rename σ) ↔ Sat s f (ρ ∘ σ) c
  | .pattern p => by
    simp only [WhereClause.rename, Sat, Pattern.Matches, Pattern.rename, NonValue.rename_matches, PatValue.rename_matches]
  | .pred none args => by simp only [WhereClause.rename, Sat]
  | .pred (some op) [] => by simp only [WhereClause.rename, FnArg.renameAll, Sat]
  | .pred (some op) [_] => by simp only [WhereClause.rename, FnArg.renameAll, Sat]
  | .pred (some op) [l, r] => by simp only [WhereClause.rename, FnArg.renameAll, Sat, FnArg.rename_denotes]
  | .pred (some op) (_ :: _ :: _ :: _) => by simp only [WhereClause.rename, FnArg.renameAll, Sat]
  | .whereFn op args b => by
    simp only [WhereClause.rename, Sat]
    exact fnSat_rename op args b
  | .or none arms => by
    simp only [WhereClause.rename, Option.map_none, Sat]
    exact satAny_rename hσ ρ arms
  | .or (some vs) arms => by
    simp only [WhereClause.rename, Option.map_some, Sat]
    exact agree_rename hσ fun ρ' => satAny_rename hσ ρ' arms
  | .not none cs => by
    simp only [WhereClause.rename, Option.map_none, Sat]
    exact not_congr (satAll_rename hσ ρ cs)
  | .not (some vs) cs => by
    simp only [WhereClause.rename, Option.map_some, Sat]
    exact not_congr (agree_rename hσ fun ρ' => satAll_rename hσ ρ' cs)
  | .typeAnno x t => by simp only [WhereClause.rename, Sat, Function.comp]
theorem satAll_rename {s : Schema} {f : Facts} {σ τ : Var → Var} (hσ : ∀ x, τ (σ x) = x) (ρ : Assign) : ∀ (cs : List WhereClause),
    SatAll s f ρ (WhereClause.renameAll σ cs) ↔ SatAll s f (ρ ∘ σ) cs
  | [] => by simp only [WhereClause.renameAll, SatAll]
  | c :: cs => by
    simp only [WhereClause.renameAll, SatAll]
    exact and_congr (sat_rename hσ ρ c) (satAll_rename hσ ρ cs)
theorem satArm_rename {s : Schema} {f : Facts} {σ τ : Var → Var} (hσ : ∀ x, τ (σ x) = x) (ρ : Assign) : ∀ (a : OrClause),
    SatArm s f ρ (WhereClause.renameArm σ a) ↔ SatArm s f (ρ ∘ σ) a
  | .clause c => by
    simp only [WhereClause.renameArm, SatArm]
    exact sat_rename hσ ρ c
  | .and cs => by
    simp only [WhereClause.renameArm, SatArm]
    exact satAll_rename hσ ρ cs
theorem satAny_rename {s : Schema} {f : Facts} {σ τ : Var → Var} (hσ : ∀ x, τ (σ x) = x) (ρ : Assign) : ∀ (as : List OrClause),
    SatAny s f ρ (WhereClause.renameAny σ as) ↔ SatAny s f (ρ ∘ σ) as
  | [] => by simp only [WhereClause.renameAny, SatAny]
  | a :: as => by
    simp only [WhereClause.renameAny, SatAny]
    exact or_congr (satArm_rename hσ ρ a) (satAny_rename hσ ρ as)
end

/-- C101, with the variables renamed, for all the kinds of clauses treated in C45, in any order and repeated.  The inputs are
those of the first query under their new names. -/
theorem C101_renamed_partial {fl : Floats} {k : Known} {L L' : Var → Prop} {db : Tables} {q q' : FindQuery}
    {inputs inputs' : Inputs} {xs : List Var} {r r' : QResult} {σ τ : Var → Var} (hσ : ∀ x, τ (σ x) = x)
    (ht : Treated k db L q inputs xs) (ht' : Treated k db L' q' inputs' (xs.map σ))
    (hcs : ∀ c, c ∈ q'.clauses ↔ ∃ c₀ ∈ q.clauses, c = c₀.rename σ)
    (hin : ∀ x, x ∈ q'.inVars ↔ ∃ x₀ ∈ q.inVars, x = σ x₀)
    (hvals : ∀ x ∈ q.inVars, AMap.get inputs'.values (σ x) = AMap.get inputs.values x)
    (hf : q.find = .rel (xs.map .var)) (hf' : q'.find = .rel ((xs.map σ).map .var))
    (hlim : q.limit = .none) (hlim' : q'.limit = .none) (ho : q.order = none) (ho' : q'.order = none)
    (hL : ∀ x ∈ xs, ¬ L x) (hL' : ∀ x ∈ xs, ¬ L' (σ x))
    (h : runQuery fl k db q inputs = .ok r) (h' : runQuery fl k db q' inputs' = .ok r') : SameRows r r' := by
  obtain ⟨rows, h1, h2, -, h3, h4⟩ := C45_rows_partial ht hf hlim h
  obtain ⟨rows', h1', h2', -, h3', h4'⟩ := C45_rows_partial ht' hf' hlim' h'
  have hL'' : ∀ x ∈ xs.map σ, ¬ L' x := by
    intro x hx
    obtain ⟨y, hy, rfl⟩ := List.mem_map.1 hx
    exact hL' y hy
  have hsat : ∀ ρ, SatAll k.schema db.facts ρ q'.clauses ↔ SatAll k.schema db.facts (ρ ∘ σ) q.clauses := by
    intro ρ
    rw [satAll_iff, satAll_iff]
    constructor
    · intro g c hc
      exact (sat_rename hσ ρ c).1 (g _ ((hcs _).2 ⟨c, hc, rfl⟩))
    · intro g c hc
      obtain ⟨c₀, hc₀, rfl⟩ := (hcs c).1 hc
      exact (sat_rename hσ ρ c₀).2 (g c₀ hc₀)
  have hans : ∀ row, Answers k.schema db.facts q' inputs'.values (xs.map σ) row ↔
      Answers k.schema db.facts q inputs.values xs row := by
    intro row
    constructor
    · rintro ⟨ρ, ⟨a, b, c⟩, rfl⟩
      refine ⟨ρ ∘ σ, ⟨fun x => a _, fun x hx => ?_, (hsat ρ).1 c⟩, by rw [List.map_map]⟩
      rw [← hvals x hx]
      exact b _ ((hin _).2 ⟨x, hx, rfl⟩)
    · rintro ⟨ρ, ⟨a, b, c⟩, rfl⟩
      have hc : (ρ ∘ τ) ∘ σ = ρ := by
        funext x
        simp [hσ]
      refine ⟨ρ ∘ τ, ⟨fun x => a _, fun x hx => ?_, (hsat _).2 (by rw [hc]; exact c)⟩, by rw [List.map_map, hc]⟩
      obtain ⟨y, hy, rfl⟩ := (hin x).1 hx
      rw [hvals y hy, b y hy]
      simp [hσ]
  rw [List.length_map] at h1'
  refine sameRows_of (xs := xs) (P := Answers k.schema db.facts q inputs.values xs) ?_
    ⟨rows, h1, h4 ho, fun row => ⟨h2 row, h3 hL row⟩⟩
    ⟨rows', h1', h4' ho', fun row => ⟨fun hr => (hans row).1 (h2' row hr), fun hr => h3' hL'' row ((hans row).2 hr)⟩⟩
  rintro row ⟨ρ, -, rfl⟩
  simp

/-! ### C102 -/

/-- C102.  What a query of patterns answers it also answers when more is asserted, and when fewer patterns are asked for. -/
theorem C102_monotone_partial {db db' : Db} (hr : ReachData db) (hr' : ReachData db') (hs : db.schema = db'.schema)
    (hmore : ∀ e a v tx, (∃ d ∈ db.store.rows, d.e = e ∧ d.a = a ∧ d.v = v ∧ d.tx = tx) →
      ∃ d ∈ db'.store.rows, d.e = e ∧ d.a = a ∧ d.v = v ∧ d.tx = tx)
    (fl : Floats) (ftId ftId' : Text → Int) {ps ps' : List Pattern} {xs : List Var}
    (hps : Askable ps) (hsub : ∀ p ∈ ps', p ∈ ps) (hne : xs ≠ []) (hn : xs.Nodup) (hxs : ∀ x ∈ xs, ∃ p ∈ ps', x ∈ p.vars) :
    ∃ rows rows' : List (List TypedValue),
      runQuery fl ⟨db.schema, none⟩ (db.tables ftId) (asking xs ps) ⟨[], []⟩ = .ok (.rel xs.length rows.flatten) ∧
      runQuery fl ⟨db'.schema, none⟩ (db'.tables ftId') (asking xs ps') ⟨[], []⟩ = .ok (.rel xs.length rows'.flatten) ∧
      (∀ row ∈ rows, row.length = xs.length) ∧ (∀ row ∈ rows', row.length = xs.length) ∧ ∀ row ∈ rows, row ∈ rows' := by
  obtain ⟨rows, h1, -, h3⟩ := C73_answers_partial hr fl ftId hps hne hn
    (fun x hx => have ⟨p, hp, hv⟩ := hxs x hx; ⟨p, hsub p hp, hv⟩)
  obtain ⟨rows', h1', -, h3'⟩ := C73_answers_partial hr' fl ftId' (fun p hp => hps p (hsub p hp)) hne hn hxs
  refine ⟨rows, rows', h1, h1', ?_, ?_, ?_⟩
  · intro row hrow
    obtain ⟨ρ, -, -, rfl⟩ := (h3 row).1 hrow
    simp
  · intro row hrow
    obtain ⟨ρ, -, -, rfl⟩ := (h3' row).1 hrow
    simp
  · intro row hrow
    obtain ⟨ρ, g1, g2, rfl⟩ := (h3 row).1 hrow
    refine (h3' _).2 ⟨ρ, g1, fun p hp => ?_, rfl⟩
    obtain ⟨d, hd, m⟩ := (asserted_iff hr.kept.reach).1 (g2 p (hsub p hp))
    obtain ⟨d', hd', e1, e2, e3, e4⟩ := hmore _ _ _ _ ⟨d, hd, rfl, rfl, rfl, rfl⟩
    refine (asserted_iff hr'.kept.reach).2 ⟨d', hd', ?_⟩
    unfold Pattern.Matches at m ⊢
    rw [e1, e2, e3, e4, ← hs]
    exact m

mutual
/-- A clause in which nothing is negated. -/
def WhereClause.positive : WhereClause → Bool
  | .not _ _ => false
  | .or _ arms => WhereClause.positiveAny arms
  | _ => true
def WhereClause.positiveAll : List WhereClause → Bool
  | [] => true
  | c :: cs => c.positive && WhereClause.positiveAll cs
def WhereClause.positiveArm : OrClause → Bool
  | .clause c => c.positive
  | .and cs => WhereClause.positiveAll cs
def WhereClause.positiveAny : List OrClause → Bool
  | [] => true
  | a :: as => WhereClause.positiveArm a && WhereClause.positiveAny as
end

/-- More is to be found. -/
structure Facts.Within (f f' : Facts) : Prop where
  rows : ∀ r ∈ f.rows, r ∈ f'.rows
  log : ∀ l ∈ f.log, l ∈ f'.log
  finds : ∀ e t, f.finds e t = true → f'.finds e t = true

mutual
theorem sat_mono {s : Schema} {f f' : Facts} (hw : f.Within f') (ρ : Assign) : ∀ (c : WhereClause), c.positive = true →
    Sat s f ρ c → Sat s f' ρ c
  | .pattern p, _, h => by
    simp only [Sat] at h ⊢
    obtain ⟨r, hr, h⟩ := h
    exact ⟨r, hw.rows r hr, h⟩
  | .pred (some op) [l, r], _, h => by simpa only [Sat] using h
  | .pred none _, _, h => by simp only [Sat] at h
  | .pred (some _) [], _, h => by simp only [Sat] at h
  | .pred (some _) [_], _, h => by simp only [Sat] at h
  | .pred (some _) (_ :: _ :: _ :: _), _, h => by simp only [Sat] at h
  | .whereFn op args b, _, h => by
    simp only [Sat] at h ⊢
    revert h
    unfold FnSat
    split
    · rintro ⟨r, hr, at_, t, e, h1, h2, h3, h4, h5, h6, h7⟩
      exact ⟨r, hw.rows r hr, at_, t, e, h1, h2, h3, h4, h5, hw.finds _ _ h6, h7⟩
    · rintro ⟨l, hl, h⟩
      exact ⟨l, hw.log l hl, h⟩
    · rintro ⟨l, hl, h⟩
      exact ⟨l, hw.log l hl, h⟩
    · exact id
  | .or none arms, hp, h => by
    simp only [Sat] at h ⊢
    exact satAny_mono hw ρ arms hp h
  | .or (some vs) arms, hp, h => by
    simp only [Sat] at h ⊢
    obtain ⟨ρ', h1, h2, h3⟩ := h
    exact ⟨ρ', h1, h2, satAny_mono hw ρ' arms hp h3⟩
  | .not _ _, hp, _ => by cases hp
  | .typeAnno x t, _, h => by simpa only [Sat] using h
theorem satAll_mono {s : Schema} {f f' : Facts} (hw : f.Within f') (ρ : Assign) : ∀ (cs : List WhereClause),
    WhereClause.positiveAll cs = true → SatAll s f ρ cs → SatAll s f' ρ cs
  | [], _, h => by simpa only [SatAll] using h
  | c :: cs, hp, h => by
    simp only [SatAll] at h ⊢
    have := Bool.and_eq_true_iff.1 hp
    exact ⟨sat_mono hw ρ c this.1 h.1, satAll_mono hw ρ cs this.2 h.2⟩
theorem satArm_mono {s : Schema} {f f' : Facts} (hw : f.Within f') (ρ : Assign) : ∀ (a : OrClause),
    WhereClause.positiveArm a = true → SatArm s f ρ a → SatArm s f' ρ a
  | .clause c, hp, h => by
    simp only [SatArm] at h ⊢
    exact sat_mono hw ρ c hp h
  | .and cs, hp, h => by
    simp only [SatArm] at h ⊢
    exact satAll_mono hw ρ cs hp h
theorem satAny_mono {s : Schema} {f f' : Facts} (hw : f.Within f') (ρ : Assign) : ∀ (as : List OrClause),
    WhereClause.positiveAny as = true → SatAny s f ρ as → SatAny s f' ρ as
  | [], _, h => by simpa only [SatAny] using h
  | a :: as, hp, h => by
    simp only [SatAny] at h ⊢
    have := Bool.and_eq_true_iff.1 hp
    exact h.imp (satArm_mono hw ρ a this.1) (satAny_mono hw ρ as this.2)
end

section
variable {fl : Floats} {k : Known} {L L' : Var → Prop} {db db' : Tables} {q : FindQuery} {inputs : Inputs} {xs : List Var}
  {r r' : QResult}

/-- The rows of one result are among those of the other. -/
def RowsAmong (r r' : QResult) : Prop :=
  ∃ (n : Nat) (rows rows' : List (List TypedValue)), r = .rel n rows.flatten ∧ r' = .rel n rows'.flatten ∧
    (∀ row ∈ rows, row.length = n) ∧ (∀ row ∈ rows', row.length = n) ∧ ∀ row ∈ rows, row ∈ rows'

theorem among_of {q' : FindQuery} {inputs' : Inputs} (ht : Treated k db L q inputs xs) (ht' : Treated k db' L' q' inputs' xs)
    (hf : q.find = .rel (xs.map .var)) (hf' : q'.find = .rel (xs.map .var)) (hlim : q.limit = .none) (hlim' : q'.limit = .none)
    (hL' : ∀ x ∈ xs, ¬ L' x)
    (hans : ∀ ρ, IsAnswer k.schema db.facts q inputs.values ρ → IsAnswer k.schema db'.facts q' inputs'.values ρ)
    (h : runQuery fl k db q inputs = .ok r) (h' : runQuery fl k db' q' inputs' = .ok r') : RowsAmong r r' := by
  obtain ⟨rows, h1, h2, -, -, -⟩ := C45_rows_partial ht hf hlim h
  obtain ⟨rows', h1', h2', -, h3', -⟩ := C45_rows_partial ht' hf' hlim' h'
  refine ⟨xs.length, rows, rows', h1, h1', ?_, ?_, ?_⟩
  · intro row hr
    obtain ⟨ρ, -, rfl⟩ := h2 row hr
    simp
  · intro row hr
    obtain ⟨ρ, -, rfl⟩ := h2' row hr
    simp
  · intro row hr
    obtain ⟨ρ, ha, rfl⟩ := h2 row hr
    exact h3' hL' _ ⟨ρ, hans ρ ha, rfl⟩

/-- C102, for the queries treated, among them those with negations: a query with fewer clauses answers at least as much. -/
theorem C102_fewer_partial {cs : List WhereClause} (ht : Treated k db L q inputs xs)
    (ht' : Treated k db L' { q with clauses := cs } inputs xs) (hcs : ∀ c ∈ cs, c ∈ q.clauses)
    (hf : q.find = .rel (xs.map .var)) (hlim : q.limit = .none) (hL' : ∀ x ∈ xs, ¬ L' x)
    (h : runQuery fl k db q inputs = .ok r) (h' : runQuery fl k db { q with clauses := cs } inputs = .ok r') : RowsAmong r r' :=
  among_of ht ht' hf hf hlim hlim hL'
    (fun _ ⟨a, b, c⟩ => ⟨a, b, satAll_iff.2 fun x hx => satAll_iff.1 c x (hcs x hx)⟩) h h'

/-- C102, for the queries treated in which nothing is negated: where more is asserted, logged and found, at least as much is
answered. -/
theorem C102_more_partial (ht : Treated k db L q inputs xs) (ht' : Treated k db' L q inputs xs)
    (hpos : WhereClause.positiveAll q.clauses = true) (hw : db.facts.Within db'.facts)
    (hf : q.find = .rel (xs.map .var)) (hlim : q.limit = .none) (hL : ∀ x ∈ xs, ¬ L x)
    (h : runQuery fl k db q inputs = .ok r) (h' : runQuery fl k db' q inputs = .ok r') : RowsAmong r r' :=
  among_of ht ht' hf hf hlim hlim hL (fun ρ ⟨a, b, c⟩ => ⟨a, b, satAll_mono hw ρ _ hpos c⟩) h h'

end

/-! ### Examples -/

namespace QueryEx

/-- `[?x :f/long ?y] [(< ?y 30)] (not [?x :f/name _])`, and the negation before the comparison and the pattern twice. -/
def orderQuery (x y : Var) : FindQuery :=
  find [x, y] [pat x "long" (.var y), .pred (some .lt) [.var y, .int 30], .not none [pat x "name" .placeholder]]
def orderClauses (x y : Var) : List WhereClause :=
  [pat x "long" (.var y), .not none [pat x "name" .placeholder], pat x "long" (.var y), .pred (some .lt) [.var y, .int 30]]

theorem C101_order_treated (x y : Var) : Treated ⟨schema, none⟩ store (fun _ => False) { orderQuery x y with clauses := orderClauses x y }
    (Inputs.ofValues []) [x, y] := by
  have hp : ∀ (vals : Var → Option TypedValue), (∀ x, vals x = none) → ∀ a v, (v = .placeholder ∨ ∃ y, v = .var y) →
      PatOk (fun _ => False) vals { e := .var x, a := .ident (kw a), v := v, tx := .placeholder } := by
    intro vals hv a v h
    refine patOk_known ⟨.inr ⟨_, rfl⟩, ?_, ?_⟩ ?_
    · rintro k rfl; rcases h with h | ⟨y, h⟩ <;> cases h
    · rintro c w rfl; rcases h with h | ⟨y, h⟩ <;> cases h
    · simp [Pattern.NoKeyword, hv]
  refine ⟨⟨rfl, inputs_ok AMap.wf_nil (by simp), by simp [orderQuery, find], ?_, looseOnce_false _, by simp [orderQuery, find]⟩, store_ok,
    by simp [orderClauses, WhereClause.usesAll, WhereClause.uses, pat], ⟨x, by simp, by simp [orderQuery, find]⟩, ?_⟩
  · refine .simple ?_
    simp only [orderQuery, orderClauses, find, pat, WhereClause.SimpleAll, WhereClause.Simple, and_true]
    refine ⟨hp _ (fun z => by simp [only]) _ _ (.inr ⟨_, rfl⟩), ⟨fun _ _ => id, ?_, looseOnce_false _, rfl, ?_⟩,
      hp _ (fun z => by simp [only]) _ _ (.inr ⟨_, rfl⟩), fun _ _ => id⟩
    · exact ⟨_, List.mem_singleton.mpr rfl, trivial⟩
    · exact hp _ (fun z => by simp [only]) _ _ (.inl rfl)
  · intro ρ hρ
    have hs := hρ.sat
    simp only [orderClauses, SatAll, pat, Sat] at hs
    refine readable_patterns (s := schema) C45_example_hyps.2.1
      (ps := [{ e := .var x, a := .ident (kw "long"), v := .var y, tx := .placeholder }]) ?_ ρ ?_
    · intro v hv
      refine ⟨_, List.mem_singleton.mpr rfl, ?_⟩
      simpa [Pattern.vars, NonValue.vars, PatValue.vars] using hv
    · intro p hp
      rw [List.mem_singleton] at hp
      subst hp
      exact hs.1

/-- The two queries meet the hypotheses of `C101_order_partial`, and are answered. -/
theorem C101_example : ∃ r r', run (orderQuery x y) [] = .ok r ∧ run { orderQuery x y with clauses := orderClauses x y } [] = .ok r' ∧
    SameRows r r' ∧ r = .rel 2 [.ref 21, .long 21, .ref 22, .long 1] := by
  have h' : (match run { orderQuery x y with clauses := orderClauses x y } [] with | .ok _ => true | _ => false) = true := by
    decide +kernel
  cases hr : run { orderQuery x y with clauses := orderClauses x y } [] with
  | ok r' =>
    refine ⟨_, r', C50_example, rfl, ?_, rfl⟩
    refine C101_order_partial C50_example_treated (C101_order_treated x y) (fun c => ?_) rfl rfl rfl (fun _ _ => id) (fun _ _ => id)
      C50_example hr
    simp only [find, orderClauses, List.mem_cons, List.not_mem_nil, or_false]
    constructor
    · rintro (h | h | h) <;> simp [h]
    · rintro (h | h | h | h) <;> simp [h]
  | err _ => rw [hr] at h'; cases h'
  | panic => rw [hr] at h'; cases h'

/-- The same with `?x` and `?y` interchanged as well. -/
theorem C101_renamed_example : ∃ r r', run (orderQuery x y) [] = .ok r ∧
    run { orderQuery y x with clauses := orderClauses y x } [] = .ok r' ∧
    SameRows r r' ∧ r = .rel 2 [.ref 21, .long 21, .ref 22, .long 1] := by
  let σ : Var → Var := fun v => if v = x then y else if v = y then x else v
  have h' : (match run { orderQuery y x with clauses := orderClauses y x } [] with | .ok _ => true | _ => false) = true := by
    decide +kernel
  cases hr : run { orderQuery y x with clauses := orderClauses y x } [] with
  | ok r' =>
    refine ⟨_, r', C50_example, rfl, ?_, rfl⟩
    refine C101_renamed_partial (σ := σ) (τ := σ) ?_ C50_example_treated (C101_order_treated y x) (fun c => ?_) ?_ ?_ rfl rfl rfl rfl
      rfl rfl (fun _ _ => id) (fun _ _ => id) C50_example hr
    · intro v
      by_cases h1 : v = x
      · subst h1; decide
      · by_cases h2 : v = y
        · subst h2; decide
        · simp only [σ, if_neg h1, if_neg h2]
    · have e1 : (pat x "long" (.var y)).rename σ = pat y "long" (.var x) := rfl
      have e2 : (WhereClause.pred (some .lt) [.var y, .int 30]).rename σ = .pred (some .lt) [.var x, .int 30] := by
        simp only [WhereClause.rename, FnArg.renameAll, FnArg.rename]; rfl
      have e3 : (WhereClause.not none [pat x "name" .placeholder]).rename σ = .not none [pat y "name" .placeholder] := by
        simp only [WhereClause.rename, WhereClause.renameAll]; rfl
      simp only [find, orderClauses, List.mem_cons, List.not_mem_nil, or_false, exists_eq_or_imp, exists_eq_left, e1, e2, e3]
      constructor
      · rintro (h | h | h | h) <;> simp [h]
      · rintro (h | h | h) <;> simp [h]
    · simp [orderQuery, find]
    · simp [find]
  | err _ => rw [hr] at h'; cases h'
  | panic => rw [hr] at h'; cases h'

/-- C101: a comparison and a negation are refused before the pattern that binds their variables, and answered after it. -/
theorem C101_fails_before :
    run (find [x, y] [pat x "long" (.var y), .pred (some .lt) [.var y, .int 30]]) [] =
      .ok (.rel 2 [.ref 20, .long 1, .ref 21, .long 21, .ref 22, .long 1]) ∧
    run (find [x, y] [.pred (some .lt) [.var y, .int 30], pat x "long" (.var y)]) [] = .err .unboundVariable ∧
    run (find [x, y] [pat x "long" (.var y), .not none [pat x "name" .placeholder]]) [] =
      .ok (.rel 2 [.ref 21, .long 21, .ref 22, .long 1]) ∧
    run (find [x, y] [.not none [pat x "name" .placeholder], pat x "long" (.var y)]) [] = .err .unboundVariable :=
  ⟨by decide +kernel, by decide +kernel, by decide +kernel, by decide +kernel⟩

/-- C101: with a pattern that has no attribute, the order of two patterns decides which column is read: one order is
answered, the other is an error. -/
theorem C101_fails_column :
    run (find [y, z] [pat x "flag" (.var z), open' y w z]) [] =
      .ok (.rel 2 [.ref 20, .boolean true, .ref 21, .boolean true, .ref 22, .boolean true]) ∧
    run (find [y, z] [open' y w z, pat x "flag" (.var z)]) [] = .err .badSqlValuePair :=
  ⟨by decide +kernel, by decide +kernel⟩

/-- C102: without the comparison and the negation, all three rows. -/
theorem C102_fewer_example : RowsAmong (.rel 2 [.ref 21, .long 21, .ref 22, .long 1])
    (.rel 2 [.ref 20, .long 1, .ref 21, .long 21, .ref 22, .long 1]) := by
  refine C102_fewer_partial (fl := floats) (cs := [pat x "long" (.var y)]) C50_example_treated ?_ ?_ rfl rfl (L' := fun _ => False)
    (fun _ _ => id) C50_example (by decide +kernel)
  · refine ⟨⟨rfl, inputs_ok AMap.wf_nil (by simp), by simp [find], ?_, looseOnce_false _, by simp [find]⟩, store_ok,
      by simp [WhereClause.usesAll, WhereClause.uses, pat], ⟨x, by simp, by simp [find]⟩, ?_⟩
    · refine .simple ?_
      simp only [find, pat, WhereClause.SimpleAll, WhereClause.Simple, and_true]
      exact patOk_known (pat_known _ _ _) (by simp [Pattern.NoKeyword, only])
    · intro ρ hρ
      have hs := hρ.sat
      simp only [SatAll, pat, Sat] at hs
      refine readable_patterns (s := schema) C45_example_hyps.2.1
        (ps := [{ e := .var x, a := .ident (kw "long"), v := .var y, tx := .placeholder }]) ?_ ρ ?_
      · intro v hv
        refine ⟨_, List.mem_singleton.mpr rfl, ?_⟩
        simpa [Pattern.vars, NonValue.vars, PatValue.vars] using hv
      · intro p hp
        rw [List.mem_singleton] at hp
        subst hp
        exact hs.1
  · intro c hc
    rw [List.mem_singleton] at hc
    subst hc
    simp [find]

/-- C102 does not hold of a negation, nor should it: with a name for 22, it is no longer found. -/
theorem C102_negation :
    run (find [x] [pat x "long" (.var y), .not none [pat x "name" .placeholder]]) [] = .ok (.rel 1 [.ref 21, .ref 22]) ∧
    runQuery floats ⟨schema, none⟩ { store with rows := store.rows ++ [datom 22 11 (.string "t".toList)] }
      (find [x] [pat x "long" (.var y), .not none [pat x "name" .placeholder]]) (Inputs.ofValues []) = .ok (.rel 1 [.ref 21]) :=
  ⟨by decide +kernel, by decide +kernel⟩

end QueryEx

/-- `[?e :x/one ?v]`, and the same twice with `?v` and `?e` interchanged, after a history. -/
theorem C101_patterns_example : ∃ db : Db, ReachData db ∧ ∃ r r',
    runQuery QueryEx.floats ⟨db.schema, none⟩ (db.tables fun _ => 1) (asking ["e".toList, "v".toList]
      [{ e := .var "e".toList, a := .ident (kw "x" "one"), v := .var "v".toList, tx := .placeholder }]) ⟨[], []⟩ = .ok r ∧
    runQuery QueryEx.floats ⟨db.schema, none⟩ (db.tables fun _ => 1) (asking ["v".toList, "e".toList]
      [{ e := .var "v".toList, a := .ident (kw "x" "one"), v := .var "e".toList, tx := .placeholder },
       { e := .var "v".toList, a := .ident (kw "x" "one"), v := .var "e".toList, tx := .placeholder }]) ⟨[], []⟩ = .ok r' ∧
    SameRows r r' ∧ r = .rel 2 [.ref e1, str "b"] := by
  obtain ⟨db, hr, hrun⟩ := C73_example
  let σ : Var → Var := fun x => if x = "e".toList then "v".toList else if x = "v".toList then "e".toList else x
  obtain ⟨r, r', h1, h2, h3⟩ := C101_patterns_partial hr QueryEx.floats (fun _ => 1)
    (ps := [{ e := .var "e".toList, a := .ident (kw "x" "one"), v := .var "v".toList, tx := .placeholder }])
    (ps' := [{ e := .var "v".toList, a := .ident (kw "x" "one"), v := .var "e".toList, tx := .placeholder },
       { e := .var "v".toList, a := .ident (kw "x" "one"), v := .var "e".toList, tx := .placeholder }])
    (xs := ["e".toList, "v".toList]) (σ := σ) (τ := σ) (by
      intro p hp
      rw [List.mem_singleton] at hp
      subst hp
      exact ⟨⟨.inr ⟨_, rfl⟩, by simp, by simp⟩, rfl, by simp⟩) (by simp) (by decide) (by
      intro x hx
      refine ⟨_, List.mem_singleton.mpr rfl, ?_⟩
      simp only [List.mem_cons, List.not_mem_nil, or_false] at hx
      rcases hx with rfl | rfl <;> simp [Pattern.vars, NonValue.vars, PatValue.vars]) (by
      intro x
      by_cases h1 : x = "e".toList
      · subst h1; decide
      · by_cases h2 : x = "v".toList
        · subst h2; decide
        · simp only [σ, if_neg h1, if_neg h2]) (by
      intro p
      simp only [List.mem_cons, List.not_mem_nil, or_false, or_self, exists_eq_left]
      rfl)
  exact ⟨db, hr, r, r', h1, h2, h3, by
    have : Res.ok r = .ok _ := h1.symm.trans hrun
    cases this; rfl⟩

/-- The store before and after a fact is added: what was answered is answered still. -/
theorem C102_monotone_example : ∃ db db' : Db, ReachData db ∧ ReachData db' ∧ db.schema = db'.schema ∧
    (∀ d ∈ db.store.rows, d ∈ db'.store.rows) ∧ ∃ d ∈ db'.store.rows, d ∉ db.store.rows := by
  have h : (match runDataFrom [setupTx] bootDb, runDataFrom [setupTx, dataTx] bootDb with
    | some db, some db' => decide (db.schema = db'.schema) && db.store.rows.all (fun d => decide (d ∈ db'.store.rows)) &&
        db'.store.rows.any (fun d => decide (d ∉ db.store.rows))
    | _, _ => false) = true := by decide +kernel
  cases h1 : runDataFrom [setupTx] bootDb with
  | none => rw [h1] at h; cases h
  | some db =>
    cases h2 : runDataFrom [setupTx, dataTx] bootDb with
    | none => rw [h1, h2] at h; cases h
    | some db' =>
      rw [h1, h2] at h
      simp only [Bool.and_eq_true, List.all_eq_true, List.any_eq_true, decide_eq_true_eq] at h
      exact ⟨db, db', runDataFrom_reach (.boot (Int.le_refl 0) bootDb_eq) h1,
        runDataFrom_reach (.boot (Int.le_refl 0) bootDb_eq) h2, h.1.1, h.1.2, h.2⟩

end Mentat
