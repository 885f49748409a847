import Verif.Proofs.QueryMono
import Verif.Proofs.QueryAnswers
/-
Values that are not references, given for variables in places of entities: the query is known to have no answers.
-/
namespace Mentat
open CC

namespace CC

/-- Known to be empty, or `x` is known not to be a reference. -/
def NotRef (x : Var) (cc : CC) : Prop := cc.empty = true ∨ ∃ ts, AMap.get cc.known x = some ts ∧ ts .ref = false

theorem NotRef.constrain {x : Var} {cc : CC} (h : NotRef x cc) (y : Var) : NotRef x (cc.constrainType y .ref) := by
  cases he : (cc.constrainType y .ref).empty with
  | true => exact .inl he
  | false =>
    obtain ⟨h1, h2⟩ := empty_constrainType he
    rcases h with h | ⟨ts, hk, hr⟩
    · rw [h] at h1; cases h1
    · refine .inr ⟨ts, ?_, hr⟩
      rw [known_constrainType, AMap.get_insert]
      split
      · rename_i e
        subst e
        rw [h2 ts hk] at hr
        cases hr
      · exact hk

theorem NotRef.mark {x : Var} {cc : CC} (h : NotRef x cc) (p : NonValue) : NotRef x (cc.markRef p) := by
  cases p with
  | var y => exact h.constrain y
  | _ => exact h

theorem NotRef.marked {x : Var} {cc : CC} (h : NotRef x cc) : (cc.markRef (.var x)).empty = true := by
  cases he : (cc.markRef (.var x)).empty with
  | true => rfl
  | false =>
    obtain ⟨h1, h2⟩ := empty_constrainType he
    rcases h with h | ⟨ts, hk, hr⟩
    · rw [h] at h1; cases h1
    · rw [h2 ts hk] at hr; cases hr

theorem markRef_empty {cc : CC} (h : cc.empty = true) (p : NonValue) : (cc.markRef p).empty = true := by
  cases p with
  | var x =>
    cases he : (cc.markRef (.var x)).empty with
    | true => rfl
    | false => rw [(empty_constrainType he).1] at h; cases h
  | _ => exact h

theorem empty_of_mono {a b : CC} (h : Mono a b) (he : a.empty = true) : b.empty = true := by
  cases hb : b.empty with
  | true => rfl
  | false => rw [h.empty hb] at he; cases he

theorem NotRef.firstPass {x : Var} : ∀ (cs : List WhereClause) {cc cc' : CC}, NotRef x cc → (∃ p, .pattern p ∈ cs ∧ p.RefVar x) →
    cc.firstPass cs = .ok cc' → cc'.empty = true
  | [], _, _, _, hp, _ => by obtain ⟨p, hp, -⟩ := hp; cases hp
  | c :: cs, cc, cc', hn, hp, h => by
    cases c with
    | typeAnno y t =>
      simp only [CC.firstPass] at h
      cases t with
      | none => simp [applyTypeAnno, Res.bind] at h
      | some t =>
        simp only [applyTypeAnno, Res.bind] at h
        obtain ⟨b, r, e, hb, -⟩ := addRequirement_same cc y (TypeSet.one t)
        rw [e] at h
        refine NotRef.firstPass cs ?_ (by simpa using hp) h
        rcases hn with hn | hn
        · left
          cases b with
          | true => rfl
          | false => rw [hb rfl] at hn; cases hn
        · exact .inr hn
    | pattern p =>
      simp only [CC.firstPass] at h
      by_cases hx : p.RefVar x
      · refine empty_of_mono (firstPass_mono cs h) ?_
        rcases hx with hx | hx | hx
        · rw [hx]
          exact markRef_empty (markRef_empty hn.marked _) _
        · rw [hx]
          exact markRef_empty (hn.mark _).marked _
        · rw [hx]
          exact ((hn.mark _).mark _).marked
      · refine NotRef.firstPass cs (((hn.mark _).mark _).mark _) ?_ h
        obtain ⟨p', hp', hx'⟩ := hp
        rw [List.mem_cons] at hp'
        rcases hp' with e | hp'
        · obtain rfl := WhereClause.pattern.inj e
          exact absurd hx' hx
        · exact ⟨p', hp', hx'⟩
    | _ => exact NotRef.firstPass cs hn (by simpa using hp) (by simpa only [CC.firstPass] using h)

theorem finish_empty {cc cc' : CC} (he : cc.empty = true) (h : cc.finish = .ok cc') : cc'.empty = true := by
  unfold finish processRequired at h
  rw [show cc.expand.prune.empty = true from he] at h
  obtain rfl := Res.ok.inj h
  exact he

end CC

theorem notRef_empty {s : Schema} {q : FindQuery} {inputs : Inputs} {xs : List Var} {a : Algebraic}
    {p : Pattern} {x : Var} {v : TypedValue} (hin : inputs.Ok) (hf : q.find = .rel (xs.map .var)) (hlim : q.limit = .none)
    (hb : WhereClause.basicAll q.clauses = true)
    (hp : .pattern p ∈ q.clauses) (hx : p.e = .var x ∨ p.a = .var x ∨ p.tx = .var x) (hi : x ∈ q.inVars)
    (hv : AMap.get inputs.values x = some v) (hn : v.valueType ≠ .ref)
    (halg : algebrizeQuery ⟨s, none⟩ q inputs = .ok a) : a.cc.empty = true ∧ a.find = q.find := by
  unfold algebrizeQuery at halg
  obtain ⟨q', hq', halg⟩ := bind_iff.mp halg
  obtain ⟨a', ha, hu⟩ := bind_iff.mp halg
  have hqq : q' = q := by
    unfold fromParsed at hq'
    rw [hlim] at hq'
    split at hq'
    · cases hq'
    · split at hq'
      · cases hq'
      · exact (Res.ok.inj hq').symm
  subst hqq
  have haa : a' = a := by
    split at hu
    · exact Res.ok.inj hu
    · cases hu
  subst haa
  unfold algebrize at ha
  obtain ⟨cc0, h0, ha⟩ := bind_iff.mp ha
  simp only [hlim] at ha
  obtain ⟨cc3, h3, ha⟩ := bind_iff.mp ha
  obtain ⟨cc, hfin, ha⟩ := bind_iff.mp ha
  obtain ⟨od, -, ha⟩ := bind_iff.mp ha
  obtain ⟨lim, -, ha⟩ := bind_iff.mp ha
  obtain rfl := Res.ok.inj ha
  have hel : q'.find.elements = xs.map .var := by rw [hf]; rfl
  rw [hel, deriveTypes_vars] at h3
  have hnot : CC.NotRef x cc0 := by
    unfold withInputs at h0
    obtain ⟨types, ht, h0⟩ := bind_iff.mp h0
    obtain ⟨values, hvs, h0⟩ := bind_iff.mp h0
    obtain rfl := Res.ok.inj h0
    refine .inr ⟨TypeSet.one v.valueType, ?_, ?_⟩
    · show AMap.get (types.map fun p => (p.1, TypeSet.one p.2) : AMap Var TypeSet) x = _
      rw [get_mapOne, get_keepKeys ht x, if_pos hi, hin.types x v hv]
      rfl
    · simp only [TypeSet.one, decide_eq_false_iff_not]
      exact fun e => hn e.symm
  unfold applyClauses at h3
  obtain ⟨cc1, h1, h2⟩ := bind_iff.mp h3
  have e1 := hnot.firstPass q'.clauses ⟨p, hp, hx⟩ h1
  have e2 := CC.empty_of_mono (applyRun_mono rfl _ _ hb h2) e1
  have e3 := CC.finish_empty e2 hfin
  exact ⟨e3, rfl⟩

theorem basicAll_patterns : ∀ ps : List Pattern, WhereClause.basicAll (ps.map .pattern) = true
  | [] => rfl
  | p :: ps => by
    rw [List.map_cons, WhereClause.basicAll, basicAll_patterns ps]
    rfl

end Mentat
