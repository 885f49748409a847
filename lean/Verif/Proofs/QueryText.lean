import Verif.Spec.QueryText
/- The forms of Spec/QueryText denote their queries. -/
namespace Mentat
namespace QText
open QParse

/-! ### Words -/

theorem ineqOf_word (s : Text) (o : Ineq) : ineqOf s = some o ↔ s = (ineqWord o).toList := by
  constructor
  · intro h
    unfold ineqOf at h
    repeat' split at h
    all_goals first
      | (cases h; assumption)
      | cases h
  · rintro rfl
    cases o <;> decide +kernel

theorem fnOf_word (s : Text) (o : FnOp) (w : String) (hw : fnWord o = some w) : fnOf s = o ↔ s = w.toList := by
  constructor
  · rintro rfl
    unfold fnOf at hw
    repeat' split at hw
    all_goals first
      | (cases hw; assumption)
      | cases hw
  · rintro rfl
    cases o <;> cases hw <;> decide +kernel

theorem typeOf_word (k : NName) (t : ValueType) : typeOf k = some t ↔ k.ns = some "db.type".toList ∧ k.name = (typeWord t).toList := by
  unfold typeOf
  constructor
  · intro h
    split at h
    · rename_i hn
      refine ⟨hn, ?_⟩
      repeat' split at h
      all_goals first
        | (cases h; assumption)
        | cases h
    · cases h
  · rintro ⟨h1, h2⟩
    rw [if_pos h1, h2]
    cases t <;> decide +kernel

theorem aggOf_word (s : Text) (o : AggOp) : aggOf s = some o ↔
    s = (aggWord o).toList ∨ s = '?' :: (aggWord o).toList ∨ s = '$' :: (aggWord o).toList := by
  have hsym : ∀ w : Text, w.head? ≠ some '?' → w.head? ≠ some '$' → (symName s = w ↔ s = w ∨ s = '?' :: w ∨ s = '$' :: w) := by
    intro w h1 h2
    unfold symName isSrcSym isVarSym
    cases s with
    | nil => simp
    | cons c r =>
      by_cases hc : c = '$'
      · subst hc
        have : '$' :: r ≠ w := by rintro rfl; simp at h2
        simp [this]
      · by_cases hc' : c = '?'
        · subst hc'
          have : '?' :: r ≠ w := by rintro rfl; simp at h1
          simp [this]
        · simp [hc, hc']
  have key : aggOf s = some o ↔ symName s = (aggWord o).toList := by
    unfold aggOf
    generalize symName s = t
    constructor
    · intro h
      simp only at h
      repeat' split at h
      all_goals first
        | (cases h; assumption)
        | cases h
    · rintro rfl
      cases o <;> decide +kernel
  rw [key]
  exact hsym _ (by cases o <;> decide +kernel) (by cases o <;> decide +kernel)

/-! ### Names, constants, places -/

theorem kwName_keyword (k : Keyword) : (kwName k).toKeyword = k := by
  obtain ⟨ns, n⟩ := k
  unfold kwName NName.toKeyword
  split
  · rename_i h
    simp only at h
    subst h
    simp [NName.parts]
  · rename_i h
    have : 0 < ns.length := List.length_pos_iff.mpr h
    simp [NName.parts, this]

theorem instantOf_micros (us : Int) : (instantOf us).toMicros = us := by
  unfold instantOf DateTime.toMicros
  simp only
  omega

def constUp : NIC → Const
  | .boolean b => .boolean b
  | .bigInteger n => .bigInteger n
  | .float d => .float (.finite d)
  | .text s => .text s
  | .instant us => .instant (instantOf us)
  | .uuid u => .uuid u

theorem constUp_lower (c : NIC) : (constUp c).lower = c := by
  cases c <;> simp [constUp, Const.lower, instantOf_micros]

theorem constUp_form (c : NIC) : (constUp c).form = constForm c := by cases c <;> rfl

mutual
def argUp : FnArg → Arg
  | .var x => .var x
  | .src _ => .src .dflt
  | .int n => .int n
  | .kw k => .kw (kwName k)
  | .const c => .const (constUp c)
  | .vec l => .vec (argsUp l)
def argsUp : List FnArg → List Arg
  | [] => []
  | a :: l => argUp a :: argsUp l
end

mutual
theorem argUp_ok : ∀ a : FnArg, ArgOk a → (argUp a).Ok ∧ (argUp a).form = argForm a ∧ (argUp a).lower = a
  | .var x, h => ⟨h, rfl, rfl⟩
  | .src n, h => ⟨trivial, rfl, by simp only [ArgOk] at h; subst h; rfl⟩
  | .int n, _ => ⟨trivial, rfl, rfl⟩
  | .kw k, _ => ⟨trivial, rfl, by simp [argUp, Arg.lower, kwName_keyword]⟩
  | .const c, _ => ⟨trivial, by simp [argUp, Arg.form, argForm, constUp_form], by simp [argUp, Arg.lower, constUp_lower]⟩
  | .vec l, h => by
    obtain ⟨h1, h2⟩ := h
    obtain ⟨i1, i2, i3⟩ := argsUp_ok l h2
    refine ⟨⟨?_, i1⟩, by simp [argUp, Arg.form, argForm, i2], by simp [argUp, Arg.lower, i3]⟩
    intro hn
    cases l with
    | nil => exact h1 rfl
    | cons a l => simp [argsUp] at hn
theorem argsUp_ok : ∀ l : List FnArg, ArgsOk l → Arg.Oks (argsUp l) ∧ Arg.forms (argsUp l) = argForms l ∧ Arg.lowerAll (argsUp l) = l
  | [], _ => ⟨trivial, rfl, rfl⟩
  | a :: l, h => by
    obtain ⟨i1, i2, i3⟩ := argUp_ok a h.1
    obtain ⟨j1, j2, j3⟩ := argsUp_ok l h.2
    exact ⟨⟨i1, j1⟩, by simp [argsUp, Arg.forms, argForms, i2, j2], by simp [argsUp, Arg.lowerAll, i3, j3]⟩
end

def nonValUp : NonValue → NonVal
  | .placeholder => .placeholder
  | .var x => .var x
  | .entid n => .entid n
  | .ident k => .ident (kwName k)

theorem nonValUp_ok {v : NonValue} (h : NonValOk v) : (nonValUp v).Ok ∧ (nonValUp v).form = nonValForm v ∧ (nonValUp v).lower = v := by
  cases v <;> simp_all [nonValUp, NonVal.Ok, NonValOk, NonVal.form, nonValForm, NonVal.lower, kwName_keyword]

def valUp : PatValue → Val
  | .placeholder => .placeholder
  | .var x => .var x
  | .entidOrInteger n => .entidOrInteger n
  | .identOrKeyword k => .identOrKeyword (kwName k)
  | .constant c => .constant (constUp c)

theorem valUp_ok {v : PatValue} (h : ValOk v) : (valUp v).Ok ∧ (valUp v).form = valForm v ∧ (valUp v).lower = v := by
  cases v <;> simp_all [valUp, Val.Ok, ValOk, Val.form, valForm, Val.lower, kwName_keyword, constUp_form, constUp_lower]
  rename_i k
  simp [NName.isNamespaced, kwName, h, List.length_pos_iff]

theorem kwName_forward {k : Keyword} (h : k.name.head? ≠ some '_') : (kwName k).isForward = true := by
  obtain ⟨ns, n⟩ := k
  have hname : (kwName ⟨ns, n⟩).name = n := by
    unfold kwName NName.name
    split
    · rfl
    · rename_i h
      have : ns.length ≠ 0 := by simpa using h
      simp [this]
  simp only [NName.isForward, NName.isBackward, hname]
  simpa using h

theorem fnName_ineq (o : Ineq) : FnName (ineqWord o).toList ["type"] := by
  cases o <;> exact ⟨by decide +kernel, by decide +kernel, by decide +kernel⟩

theorem fnName_fn {o : FnOp} {w : String} (h : fnWord o = some w) : FnName w.toList ["type"] := by
  cases o <;> cases h <;> exact ⟨by decide +kernel, by decide +kernel, by decide +kernel⟩

theorem fnName_agg (o : AggOp) : FnName (aggWord o).toList ["the", "pull"] := by
  cases o <;> exact ⟨by decide +kernel, by decide +kernel, by decide +kernel⟩

def patUp (p : Pattern) : Pat := ⟨none, nonValUp p.e, nonValUp p.a, valUp p.v, nonValUp p.tx⟩

theorem patUp_ok {p : Pattern} (h : PatOk p) :
    PatForm [nonValForm p.e, nonValForm p.a, valForm p.v, nonValForm p.tx] (patUp p) ∧ (patUp p).lower = p := by
  obtain ⟨e1, e2, e3⟩ := nonValUp_ok h.e
  obtain ⟨a1, a2, a3⟩ := nonValUp_ok h.a
  obtain ⟨v1, v2, v3⟩ := valUp_ok h.v
  obtain ⟨t1, t2, t3⟩ := nonValUp_ok h.tx
  refine ⟨?_, ?_⟩
  · have := PatForm.full none (nonValUp p.e) (nonValUp p.a) (valUp p.v) (nonValUp p.tx) _ (by simp) e1 a1 v1 t1 (by
      intro k hk
      cases ha : p.a with
      | ident k' =>
        rw [ha, nonValUp] at hk
        cases hk
        exact kwName_forward (h.forward _ ha)
      | _ => rw [ha, nonValUp] at hk; cases hk) (.inl rfl)
    rw [e2, a2, v2, t2] at this
    exact this
  · unfold patUp Pat.lower
    simp only [e3, a3, v3, t3, Option.map_none, Option.getD_none, ← h.source]

/-! ### Clauses -/

mutual
def clauseUp : WhereClause → Clause
  | .pattern p => .pattern (patUp p)
  | .pred op args => .pred (match op with | some o => (ineqWord o).toList | none => []) (argsUp args)
  | .whereFn op args b => .whereFn (match fnWord op with | some w => w.toList | none => []) (argsUp args) b
  | .or u arms => .or u (armsUp arms)
  | .not u cs => .not u (clausesUp cs)
  | .typeAnno x t => .typeAnno x (match t with | some t => kwName ⟨"db.type".toList, (typeWord t).toList⟩ | none => ⟨[], 0⟩)
def clausesUp : List WhereClause → List Clause
  | [] => []
  | c :: cs => clauseUp c :: clausesUp cs
def armUp : OrClause → OrArm
  | .clause c => .clause (clauseUp c)
  | .and cs => .and (clausesUp cs)
def armsUp : List OrClause → List OrArm
  | [] => []
  | c :: cs => armUp c :: armsUp cs
end

theorem clausesUp_ne {cs : List WhereClause} (h : cs ≠ []) : clausesUp cs ≠ [] := by
  cases cs with
  | nil => exact absurd rfl h
  | cons c cs => simp [clausesUp]

theorem armsUp_ne {cs : List OrClause} (h : cs ≠ []) : armsUp cs ≠ [] := by
  cases cs with
  | nil => exact absurd rfl h
  | cons c cs => simp [armsUp]

theorem typeOf_kwName (t : ValueType) : typeOf (kwName ⟨"db.type".toList, (typeWord t).toList⟩) = some t := by
  cases t <;> decide +kernel

mutual
theorem clauseUp_ok : ∀ c : WhereClause, ClauseOk c → ClauseForm (clauseForm c) (clauseUp c) ∧ (clauseUp c).lower = c
  | .pattern p, h => by
    obtain ⟨h1, h2⟩ := patUp_ok h
    exact ⟨.pattern h1, by rw [clauseUp, Clause.lower, h2]⟩
  | .pred op args, h => by
    obtain ⟨h1, h2⟩ := h
    obtain ⟨a1, a2, a3⟩ := argsUp_ok args h2
    cases op with
    | none => exact absurd rfl h1
    | some o =>
      refine ⟨?_, by rw [clauseUp, Clause.lower, a3, (ineqOf_word _ o).mpr rfl]⟩
      have := ClauseForm.pred (fnName_ineq o) a1
      rw [a2] at this
      exact this
  | .whereFn op args b, h => by
    obtain ⟨h1, h2, h3⟩ := h
    obtain ⟨a1, a2, a3⟩ := argsUp_ok args h2
    cases hw : fnWord op with
    | none => cases op <;> simp [fnWord] at hw h1
    | some w =>
      refine ⟨?_, by rw [clauseUp, Clause.lower, a3, hw, (fnOf_word _ op w hw).mpr rfl]⟩
      have := ClauseForm.whereFn (fnName_fn hw) a1 h3
      rw [a2] at this
      rw [clauseForm, clauseUp, hw]
      exact this
  | .or u arms, h => by
    obtain ⟨h1, h2, h3⟩ := h
    obtain ⟨i1, i2⟩ := armsUp_ok arms h3
    refine ⟨?_, by rw [clauseUp, Clause.lower, i2]⟩
    cases u with
    | none => rw [clauseForm, clauseUp]; exact .or i1 (armsUp_ne h2)
    | some xs =>
      obtain ⟨j1, j2, j3⟩ := h1 xs rfl
      rw [clauseForm, clauseUp]
      exact .orJoin j1 j2 j3 i1 (armsUp_ne h2)
  | .not u cs, h => by
    obtain ⟨h1, h2, h3⟩ := h
    obtain ⟨i1, i2⟩ := clausesUp_ok cs h3
    refine ⟨?_, by rw [clauseUp, Clause.lower, i2]⟩
    cases u with
    | none => rw [clauseForm, clauseUp]; exact .not i1 (clausesUp_ne h2)
    | some xs =>
      obtain ⟨j1, j2, j3⟩ := h1 xs rfl
      rw [clauseForm, clauseUp]
      exact .notJoin j1 j2 j3 i1 (clausesUp_ne h2)
  | .typeAnno x t, h => by
    obtain ⟨h1, h2⟩ := h
    cases t with
    | none => exact absurd rfl h2
    | some t => exact ⟨.typeAnno h1, by rw [clauseUp, Clause.lower, typeOf_kwName]⟩
theorem clausesUp_ok : ∀ cs : List WhereClause, ClausesOk cs →
    ClausesForm (clauseForms cs) (clausesUp cs) ∧ Clause.lowerAll (clausesUp cs) = cs
  | [], _ => ⟨.nil, rfl⟩
  | c :: cs, h => by
    obtain ⟨i1, i2⟩ := clauseUp_ok c h.1
    obtain ⟨j1, j2⟩ := clausesUp_ok cs h.2
    exact ⟨.cons i1 j1, by rw [clausesUp, Clause.lowerAll, i2, j2]⟩
theorem armUp_ok : ∀ c : OrClause, ArmOk c → ArmForm (armForm c) (armUp c) ∧ (armUp c).lower = c
  | .clause c, h => by
    obtain ⟨i1, i2⟩ := clauseUp_ok c h
    exact ⟨.clause i1, by rw [armUp, OrArm.lower, i2]⟩
  | .and cs, h => by
    obtain ⟨i1, i2⟩ := clausesUp_ok cs h.2
    exact ⟨.and i1 (clausesUp_ne h.1), by rw [armUp, OrArm.lower, i2]⟩
theorem armsUp_ok : ∀ cs : List OrClause, ArmsOk cs → ArmsForm (armForms cs) (armsUp cs) ∧ OrArm.lowerAll (armsUp cs) = cs
  | [], _ => ⟨.nil, rfl⟩
  | c :: cs, h => by
    obtain ⟨i1, i2⟩ := armUp_ok c h.1
    obtain ⟨j1, j2⟩ := armsUp_ok cs h.2
    exact ⟨.cons i1 j1, by rw [armsUp, OrArm.lowerAll, i2, j2]⟩
end

/-! ### Queries -/

def elemUp : Element → Elem
  | .var x => .var x
  | .corresponding x => .corresponding x
  | .pull x => .pull x [.wildcard]
  | .aggregate op args => .aggregate (match op with | some o => (aggWord o).toList | none => []) (argsUp args)

theorem elemUp_ok {e : Element} (h : ElemOk e) : (elemUp e).Ok ∧ (elemUp e).form = elemForm e ∧ (elemUp e).lower = e := by
  cases e with
  | var x => exact ⟨h, rfl, rfl⟩
  | corresponding x => exact ⟨h, rfl, rfl⟩
  | pull x => exact ⟨⟨h, by simp, by simp [PullAttr.Ok]⟩, rfl, rfl⟩
  | aggregate op args =>
    obtain ⟨h1, h2⟩ := h
    obtain ⟨a1, a2, a3⟩ := argsUp_ok args h2
    cases op with
    | none => exact absurd rfl h1
    | some o =>
      refine ⟨⟨fnName_agg o, a1⟩, ?_, ?_⟩
      · simp only [elemUp, Elem.form, elemForm, a2, symE]
      · simp only [elemUp, Elem.lower, a3]
        rw [(aggOf_word _ o).mpr (.inl rfl)]

def findUp : FindSpec → Find
  | .rel l => .rel (l.map elemUp)
  | .scalar e => .scalar (elemUp e)
  | .coll e => .coll (elemUp e)
  | .tuple l => .tuple (l.map elemUp)

theorem elems_ok {l : List Element} (h : ∀ e ∈ l, ElemOk e) :
    (∀ e ∈ l.map elemUp, e.Ok) ∧ (l.map elemUp).map Elem.form = l.map elemForm ∧ (l.map elemUp).map Elem.lower = l := by
  refine ⟨?_, ?_, ?_⟩
  · intro e he
    obtain ⟨e', he', rfl⟩ := List.mem_map.mp he
    exact (elemUp_ok (h e' he')).1
  · rw [List.map_map]
    exact List.map_congr_left fun e he => (elemUp_ok (h e he)).2.1
  · rw [List.map_map]
    conv => rhs; rw [← List.map_id l]
    exact List.map_congr_left fun e he => (elemUp_ok (h e he)).2.2

theorem findUp_ok {f : FindSpec} (h0 : f.elements ≠ []) (h : ∀ e ∈ f.elements, ElemOk e) :
    FindForm (findForm f) (findUp f) ∧ (findUp f).lower = f := by
  cases f with
  | rel l =>
    obtain ⟨h1, h2, h3⟩ := elems_ok (l := l) h
    refine ⟨?_, by rw [findUp, Find.lower, h3]⟩
    have := FindForm.rel (l := l.map elemUp) (by simpa [FindSpec.elements] using h0) h1
    rw [h2] at this
    exact this
  | tuple l =>
    obtain ⟨h1, h2, h3⟩ := elems_ok (l := l) h
    refine ⟨?_, by rw [findUp, Find.lower, h3]⟩
    have := FindForm.tuple (l := l.map elemUp) (by simpa [FindSpec.elements] using h0) h1
    rw [h2] at this
    exact this
  | scalar e =>
    obtain ⟨h1, h2, h3⟩ := elemUp_ok (h e (by simp [FindSpec.elements]))
    refine ⟨?_, by rw [findUp, Find.lower, h3]⟩
    have := FindForm.scalar h1
    rw [h2] at this
    exact this
  | coll e =>
    obtain ⟨h1, h2, h3⟩ := elemUp_ok (h e (by simp [FindSpec.elements]))
    refine ⟨?_, by rw [findUp, Find.lower, h3]⟩
    have := FindForm.coll h1
    rw [h2] at this
    exact this

theorem ordersForm {os : List (Bool × Var)} (h : ∀ o ∈ os, IsVar o.2) : OrdersForm (os.map orderForm) os := by
  induction os with
  | nil => exact .nil
  | cons o os ih =>
    refine .cons ?_ (ih fun p hp => h p (by simp [hp]))
    obtain ⟨b, x⟩ := o
    cases b
    · exact .desc (h _ (by simp))
    · exact .asc (h _ (by simp))

def queryUp (q : FindQuery) : Query :=
  { find := findUp q.find, withVars := q.withVars, inVars := q.inVars, limit := q.limit, order := q.order,
    clauses := clausesUp q.clauses }

theorem queryUp_form {q : FindQuery} (h : QueryOk q) : QueryForm (queryForm q) (queryUp q) := by
  let ps : List Part := .find (findUp q.find) :: (((if q.withVars = [] then [] else [.withVars q.withVars]) : List Part) ++
    (((if q.inVars = [] then [] else [.inVars q.inVars]) : List Part) ++ (.clauses (clausesUp q.clauses) ::
    ((match q.order with | none => [] | some os => [.order os] : List Part) ++
      (match q.limit with | .none => [] | l => [.limit l] : List Part)))))
  refine ⟨_, ps, rfl, ?_, ?_⟩
  · refine .cons (.find (findUp_ok h.find.1 h.find.2).1) ?_
    have h5 : PartsForm (limitForm q.limit) (match q.limit with | .none => [] | l => [.limit l] : List Part) := by
      cases hl : q.limit with
      | none => exact .nil
      | fixed n => exact .cons (.limitFixed (h.fixed n hl)) .nil
      | var x => exact .cons (.limitVar (h.inVars.2 x (h.limit x hl))) .nil
    have h4 : PartsForm ((match q.order with | none => [] | some os => kwdE "order" :: os.map orderForm) ++ limitForm q.limit)
        ((match q.order with | none => [] | some os => [.order os] : List Part) ++
          (match q.limit with | .none => [] | l => [.limit l] : List Part)) := by
      cases ho : q.order with
      | none => exact h5
      | some os => exact .cons (.order (ordersForm (h.order os ho).2) (h.order os ho).1) h5
    have h3 := PartsForm.cons (.clauses (clausesUp_ok q.clauses h.clauses.2).1 (clausesUp_ne h.clauses.1)) h4
    have hv : ∀ {xs : List Var} {word : String} {p : Part} {l : List Edn} {ps : List Part},
        (xs ≠ [] → PartForm (kwdE word :: xs.map .plainSymbol) p) → PartsForm l ps →
        PartsForm (varsForm word xs ++ l) ((if xs = [] then [] else [p]) ++ ps) := by
      intro xs word p l ps h1 h2
      unfold varsForm
      split
      · exact h2
      · rename_i hx; exact .cons (h1 hx) h2
    exact hv (fun hx => .withVars hx h.withVars.2) (hv (fun hx => .inVars hx h.inVars.2) h3)
  · have hw : ∀ (P : Prop) [Decidable P] (a p : Part), p ∈ (if P then [] else [a] : List Part) ↔ ¬ P ∧ p = a := by
      intro P _ a p; split <;> simp_all
    have ho : ∀ p : Part, p ∈ (match q.order with | none => [] | some os => [.order os] : List Part) ↔ ∃ os, q.order = some os ∧ p = .order os := by
      intro p; cases q.order <;> simp
    have hl : ∀ p : Part, p ∈ (match q.limit with | .none => [] | l => [.limit l] : List Part) ↔ q.limit ≠ .none ∧ p = .limit q.limit := by
      intro p; cases q.limit <;> simp
    have hmem : ∀ p, p ∈ ps ↔ p = .find (findUp q.find) ∨ (¬ q.withVars = [] ∧ p = .withVars q.withVars) ∨
        (¬ q.inVars = [] ∧ p = .inVars q.inVars) ∨ p = .clauses (clausesUp q.clauses) ∨ (∃ os, q.order = some os ∧ p = .order os) ∨
        (q.limit ≠ .none ∧ p = .limit q.limit) := by
      intro p
      simp only [ps, List.mem_cons, List.mem_append, hw, ho, hl]
    constructor
    · intro f; rw [hmem]; simp [queryUp]
    · intro f; rw [hmem]; simp [queryUp]
    · by_cases he : q.withVars = []
      · exact .inl ⟨fun l => by rw [hmem]; simp [he], he⟩
      · exact .inr fun l => by rw [hmem]; simp [he, queryUp]
    · by_cases he : q.inVars = []
      · exact .inl ⟨fun l => by rw [hmem]; simp [he], he⟩
      · exact .inr fun l => by rw [hmem]; simp [he, queryUp]
    · by_cases he : q.limit = .none
      · exact .inl ⟨fun l => by rw [hmem]; simp [he], he⟩
      · exact .inr fun l => by rw [hmem]; simp [he, queryUp]
    · intro l; rw [hmem]; simp [queryUp, eq_comm]
    · simp only [ps]
      rcases q with ⟨f, w, i, l, o, c⟩
      simp only
      split <;> split <;> cases o <;> cases l <;> simp [Part.ctorIdx]

theorem queryUp_toFind {q : FindQuery} (h : QueryOk q) : (queryUp q).toFind = .ok q := by
  have h1 : (queryUp q).inVars.Nodup := h.inVars.1
  have h2 : (queryUp q).withVars.Nodup := h.withVars.1
  unfold Query.toFind
  rw [if_neg (fun n => n h1), if_neg (fun n => n h2)]
  have e : (⟨(queryUp q).find.lower, (queryUp q).withVars, (queryUp q).inVars, (queryUp q).limit, (queryUp q).order,
      Clause.lowerAll (queryUp q).clauses⟩ : FindQuery) = q := by
    simp only [queryUp, (findUp_ok h.find.1 h.find.2).2, (clausesUp_ok q.clauses h.clauses.2).2]
  simp only [e]
  cases hl : q.limit with
  | none => simp [queryUp, hl]
  | fixed n => simp [queryUp, hl]
  | var x => simp [queryUp, hl, h.limit x hl]

end QText
end Mentat
