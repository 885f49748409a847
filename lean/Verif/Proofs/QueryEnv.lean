import Verif.Model.Algebrize
/-
The evaluation of SQL depends only on the aliases it refers to; the rows of `FROM` lists.
-/
namespace Mentat

def SExpr.refs : SExpr → List Alias
  | .col al _ => [al]
  | .const _ => []

mutual
/-- The aliases a condition refers to and does not bind. -/
def Constraint.refs : Constraint → List Alias
  | .infix _ l r => l.refs ++ r.refs
  | .or cs => Constraint.refsAll cs
  | .and cs => Constraint.refsAll cs
  | .typeCheck e _ => e.refs
  | .search al e => al :: e.refs
  | .notExists q => q.refs
def Constraint.refsAll : List Constraint → List Alias
  | [] => []
  | c :: cs => c.refs ++ Constraint.refsAll cs
def STable.refs : STable → List Alias
  | .table _ => []
  | .union arms _ => Select.refsArms arms
  | .values _ _ _ => []
def STable.refsAll : List STable → List Alias
  | [] => []
  | t :: ts => t.refs ++ STable.refsAll ts
def Select.refsArms : List Select → List Alias
  | [] => []
  | q :: qs => q.refs ++ Select.refsArms qs
def Select.refs : Select → List Alias
  | .mk _ cols tables wh _ _ => STable.refsAll tables ++
      (Constraint.refsAll wh ++ cols.flatMap fun c => c.1.refs).filter
        fun al => decide (al ∉ tables.map STable.alias)
end

theorem Env.get_append (l : Env) (env : Env) (al : Alias) :
    Env.get (l ++ env) al = if al ∈ l.map Prod.fst then Env.get l al else Env.get env al := by
  induction l with
  | nil => simp
  | cons p l ih =>
    obtain ⟨a, r⟩ := p
    by_cases h : a = al
    · subst h; simp [Env.get]
    · have h' : al ≠ a := fun e => h e.symm
      simp only [Env.get, List.cons_append, AMap.get_cons, if_neg h, List.map_cons, List.mem_cons, h',
        false_or] at ih ⊢
      exact ih

theorem evalFrom_keys {db : Tables} {env : Env} {ts : List STable} {loc : Env}
    (h : loc ∈ evalFrom db env ts) : loc.map Prod.fst = ts.map STable.alias := by
  induction ts generalizing loc with
  | nil => simp [evalFrom] at h; simp [h]
  | cons t ts ih =>
    simp only [evalFrom, List.mem_flatMap, List.mem_map] at h
    obtain ⟨r, -, l, hl, rfl⟩ := h
    simp [ih hl]

theorem mem_evalFrom_append {db : Tables} {env : Env} {ts us : List STable} {loc : Env} :
    loc ∈ evalFrom db env (ts ++ us) ↔
      ∃ l1 ∈ evalFrom db env ts, ∃ l2 ∈ evalFrom db env us, loc = l1 ++ l2 := by
  induction ts generalizing loc with
  | nil => simp [evalFrom]
  | cons t ts ih =>
    simp only [List.cons_append, evalFrom, List.mem_flatMap, List.mem_map]
    constructor
    · rintro ⟨r, hr, l, hl, rfl⟩
      obtain ⟨l1, h1, l2, h2, rfl⟩ := ih.mp hl
      exact ⟨_, ⟨r, hr, l1, h1, rfl⟩, l2, h2, rfl⟩
    · rintro ⟨_, ⟨r, hr, l1, h1, rfl⟩, l2, h2, rfl⟩
      exact ⟨r, hr, l1 ++ l2, ih.mpr ⟨l1, h1, l2, h2, rfl⟩, rfl⟩

theorem mem_evalFrom_one {db : Tables} {env : Env} {t : STable} {loc : Env} :
    loc ∈ evalFrom db env [t] ↔ ∃ r ∈ evalTable db env t, loc = [(t.alias, r)] := by
  simp only [evalFrom, List.mem_flatMap, List.mem_map, List.mem_singleton]
  constructor
  · rintro ⟨r, hr, l, rfl, rfl⟩; exact ⟨r, hr, rfl⟩
  · rintro ⟨r, hr, rfl⟩; exact ⟨r, hr, [], rfl, rfl⟩

theorem SExpr.eval_congr {env env' : Env} {e : SExpr}
    (h : ∀ al ∈ e.refs, Env.get env al = Env.get env' al) : e.eval env = e.eval env' := by
  cases e with
  | col al c => simp [SExpr.eval, h al (by simp [SExpr.refs])]
  | const v => rfl

theorem evalInfix_congr {env env' : Env} {op : SqlOp} {l r : SExpr}
    (h : ∀ al ∈ l.refs ++ r.refs, Env.get env al = Env.get env' al) :
    evalInfix env op l r = evalInfix env' op l r := by
  unfold evalInfix
  rw [SExpr.eval_congr fun al ha => h al (by simp [ha]), SExpr.eval_congr fun al ha => h al (by simp [ha])]

mutual
theorem evalC_congr (db : Tables) {env env' : Env} : ∀ (c : Constraint),
    (∀ al ∈ c.refs, Env.get env al = Env.get env' al) → evalC db env c = evalC db env' c
  | .infix op l r, h => evalInfix_congr h
  | .or cs, h => by
      simp only [evalC]; exact evalAny_congr db cs h
  | .and cs, h => by
      simp only [evalC]; exact evalAll_congr db cs h
  | .typeCheck e real, h => by
      simp only [evalC]; rw [SExpr.eval_congr h]
  | .search al e, h => by
      simp only [evalC]
      rw [SExpr.eval_congr fun b hb => h b (by simp [Constraint.refs, hb]), h al (by simp [Constraint.refs])]
  | .notExists q, h => by
      simp only [evalC]; rw [evalSelect_congr db q h]
theorem evalAny_congr (db : Tables) {env env' : Env} : ∀ (cs : List Constraint),
    (∀ al ∈ Constraint.refsAll cs, Env.get env al = Env.get env' al) →
    evalAny db env cs = evalAny db env' cs
  | [], _ => rfl
  | c :: cs, h => by
      simp only [evalAny]
      rw [evalC_congr db c fun al ha => h al (by simp [Constraint.refsAll, ha]),
        evalAny_congr db cs fun al ha => h al (by simp [Constraint.refsAll, ha])]
theorem evalAll_congr (db : Tables) {env env' : Env} : ∀ (cs : List Constraint),
    (∀ al ∈ Constraint.refsAll cs, Env.get env al = Env.get env' al) →
    evalAll db env cs = evalAll db env' cs
  | [], _ => rfl
  | c :: cs, h => by
      simp only [evalAll]
      rw [evalC_congr db c fun al ha => h al (by simp [Constraint.refsAll, ha]),
        evalAll_congr db cs fun al ha => h al (by simp [Constraint.refsAll, ha])]
theorem evalTable_congr (db : Tables) {env env' : Env} : ∀ (t : STable),
    (∀ al ∈ t.refs, Env.get env al = Env.get env' al) → evalTable db env t = evalTable db env' t
  | .table _, _ => rfl
  | .union [] _, _ => rfl
  | .union (q :: qs) al, h => by
      simp only [evalTable]
      rw [evalSelect_congr db q fun al ha => h al (by simp [STable.refs, Select.refsArms, ha]),
        evalArms_congr db qs fun al ha => h al (by simp [STable.refs, Select.refsArms, ha])]
  | .values _ _ _, _ => rfl
theorem evalArms_congr (db : Tables) {env env' : Env} : ∀ (qs : List Select),
    (∀ al ∈ Select.refsArms qs, Env.get env al = Env.get env' al) → evalArms db env qs = evalArms db env' qs
  | [], _ => rfl
  | q :: qs, h => by
      simp only [evalArms]
      rw [evalSelect_congr db q fun al ha => h al (by simp [Select.refsArms, ha]),
        evalArms_congr db qs fun al ha => h al (by simp [Select.refsArms, ha])]
theorem evalFrom_congr (db : Tables) {env env' : Env} : ∀ (ts : List STable),
    (∀ al ∈ STable.refsAll ts, Env.get env al = Env.get env' al) → evalFrom db env ts = evalFrom db env' ts
  | [], _ => rfl
  | t :: ts, h => by
      simp only [evalFrom]
      rw [evalTable_congr db t fun al ha => h al (by simp [STable.refsAll, ha]),
        evalFrom_congr db ts fun al ha => h al (by simp [STable.refsAll, ha])]
theorem evalSelect_congr (db : Tables) {env env' : Env} : ∀ (q : Select),
    (∀ al ∈ q.refs, Env.get env al = Env.get env' al) → evalSelect db env q = evalSelect db env' q
  | .mk distinct cols tables wh order limit, h => by
      simp only [evalSelect]
      rw [evalFrom_congr db tables fun al ha => h al (by simp [Select.refs, ha])]
      have key : ∀ loc ∈ evalFrom db env' tables,
          ∀ al ∈ Constraint.refsAll wh ++ cols.flatMap fun c => c.1.refs,
          Env.get (loc ++ env) al = Env.get (loc ++ env') al := by
        intro loc hl al ha
        rw [Env.get_append, Env.get_append]
        split
        · rfl
        · rename_i hn
          rw [evalFrom_keys hl] at hn
          exact h al (by
            simp only [Select.refs, List.mem_append, List.mem_filter, decide_eq_true_eq]
            exact Or.inr ⟨by simpa using ha, hn⟩)
      congr 1
      have e1 : ∀ loc ∈ evalFrom db env' tables,
          evalAll db (loc ++ env) wh = evalAll db (loc ++ env') wh := fun loc hl =>
        evalAll_congr db wh fun al ha => key loc hl al (by simp [ha])
      rw [List.filter_congr e1]
      apply List.map_congr_left
      intro loc hl
      apply List.map_congr_left
      intro c hc
      exact SExpr.eval_congr fun al ha => key loc (List.mem_filter.mp hl).1 al (by
        simp only [List.mem_append, List.mem_flatMap]; exact Or.inr ⟨c, hc, ha⟩)
end

theorem evalAll_append (db : Tables) (env : Env) (cs ds : List Constraint) :
    evalAll db env (cs ++ ds) = (evalAll db env cs && evalAll db env ds) := by
  induction cs with
  | nil => simp [evalAll]
  | cons c cs ih => simp [evalAll, ih, Bool.and_assoc]

theorem evalAll_iff {db : Tables} {env : Env} {cs : List Constraint} :
    evalAll db env cs = true ↔ ∀ c ∈ cs, evalC db env c = true := by
  induction cs with
  | nil => simp [evalAll]
  | cons c cs ih => simp [evalAll, ih]

theorem evalAny_iff {db : Tables} {env : Env} {cs : List Constraint} :
    evalAny db env cs = true ↔ ∃ c ∈ cs, evalC db env c = true := by
  induction cs with
  | nil => simp [evalAny]
  | cons c cs ih => simp [evalAny, ih]

theorem mem_refsAll {cs : List Constraint} {al : Alias} :
    al ∈ Constraint.refsAll cs ↔ ∃ c ∈ cs, al ∈ c.refs := by
  induction cs with
  | nil => simp [Constraint.refsAll]
  | cons c cs ih => simp [Constraint.refsAll, ih]

end Mentat
