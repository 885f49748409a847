import Verif.Proofs.QueryParse
import Verif.Proofs.QueryParts
/- The query rules on any text: they do not run out of their bound, they consume, and what they make
is well formed. -/
namespace Mentat
namespace QParse
open Edn EdnParse

/-- The result is not `stuck`; what is left is shorter than `m` and what is made satisfies `P`. -/
def Below (m : Nat) (P : α → Prop) : PRes α → Prop
  | .ok a r => r.length < m ∧ P a
  | .stuck => False
  | _ => True

theorem Below.mono {m m' : Nat} {P Q : α → Prop} {r : PRes α} (h : Below m P r) (hm : m ≤ m') (hP : ∀ a, P a → Q a) :
    Below m' Q r := by
  cases r with
  | ok a r => exact ⟨Nat.lt_of_lt_of_le h.1 hm, hP a h.2⟩
  | stuck => exact h
  | _ => trivial

theorem Below.bind {m m' : Nat} {P : α → Prop} {Q : β → Prop} {r : PRes α} {f : α → Text → PRes β} (h : Below m P r)
    (hf : ∀ a t, t.length < m → P a → Below m' Q (f a t)) : Below m' Q (bind r f) := by
  cases r with
  | ok a r => exact hf a r h.1 h.2
  | stuck => exact h
  | _ => trivial

theorem Below.expect {m : Nat} {P : α → Prop} {w : String} {s : Text} {k : Text → PRes α}
    (h : ∀ t : Text, t.length + w.toList.length = s.length → Below m P (k t)) : Below m P (expect w s k) := by
  unfold QParse.expect
  split
  · rename_i r hr; exact h r (lit_length hr)
  · trivial

theorem Below.orElse {m : Nat} {P : α → Prop} {a : PRes α} {b : Unit → PRes α} (ha : Below m P a) (hb : Below m P (b ())) :
    Below m P (EdnParse.PRes.orElse a b) := by
  cases a with
  | fail => exact hb
  | _ => exact ha

theorem Below.accept {m : Nat} {P : α → Prop} {Q : β → Prop} {r : PRes α} {g : α → Option β} (h : Below m P r)
    (hg : ∀ a b, P a → g a = some b → Q b) : Below m Q (accept r g) := by
  refine h.bind fun a t ht hP => ?_
  cases hga : g a with
  | some b => exact ⟨ht, hg a b hP hga⟩
  | none => trivial

theorem Below.opt {m : Nat} {P : α → Prop} {p : Text → PRes α} {s : Text} (h : Below m P (p s)) (hs : s.length < m) :
    Below m (fun o => ∀ a, o = some a → P a) (opt p s) := by
  unfold QParse.opt
  split
  · rename_i a r he; rw [he] at h; exact ⟨h.1, by rintro b ⟨⟩; exact h.2⟩
  · exact ⟨hs, by simp⟩
  · trivial
  · rename_i he; rw [he] at h; exact h

theorem below_manyN {P : α → Prop} {p : Text → PRes α} (n : Nat) (s : Text)
    (hp : ∀ t : Text, t.length ≤ s.length → Below t.length P (p t)) (hn : s.length < n) :
    Below (s.length + 1) (fun l => ∀ a ∈ l, P a) (manyN p n s) := by
  induction n generalizing s with
  | zero => omega
  | succ n ih =>
    rw [manyN]
    have h := hp s (Nat.le_refl _)
    split
    · rename_i a r he
      rw [he] at h
      refine Below.bind (ih r (fun t ht => hp t (Nat.le_trans ht (Nat.le_of_lt h.1))) (by have := h.1; omega)) ?_
      intro l t ht hl
      refine ⟨by have := h.1; omega, ?_⟩
      intro b hb
      rcases List.mem_cons.mp hb with rfl | hb
      · exact h.2
      · exact hl b hb
    · exact ⟨by omega, by simp⟩
    · trivial
    · rename_i he; rw [he] at h; exact h

theorem below_many {P : α → Prop} {p : Text → PRes α} {s : Text}
    (hp : ∀ t : Text, t.length ≤ s.length → Below t.length P (p t)) :
    Below (s.length + 1) (fun l => ∀ a ∈ l, P a) (many p s) := below_manyN _ s hp (by omega)

theorem below_many1 {P : α → Prop} {p : Text → PRes α} {s : Text}
    (hp : ∀ t : Text, t.length ≤ s.length → Below t.length P (p t)) :
    Below s.length (fun l => l ≠ [] ∧ ∀ a ∈ l, P a) (many1 p s) := by
  refine (hp s (Nat.le_refl _)).bind fun a t ht ha => ?_
  refine (below_many fun u hu => hp u (by omega)).bind fun l u hu hl => ?_
  refine ⟨by omega, by simp, ?_⟩
  intro b hb
  rcases List.mem_cons.mp hb with rfl | hb
  · exact ha
  · exact hl b hb

theorem below_ok {m : Nat} {P : α → Prop} {a : α} {r : Text} (h : r.length < m) (hP : P a) : Below m P (.ok a r) := ⟨h, hP⟩

section

theorem val_below (s : Text) : Below s.length (fun _ => True) (val s) := by
  have h := (not_stuck (4 * s.length + 4)).1 s (by omega)
  unfold val
  cases he : value (4 * s.length + 4) s with
  | ok v r => exact ⟨h.2 v r he, trivial⟩
  | stuck => exact absurd he h.1
  | _ => trivial

theorem skip_le (s : Text) : (skip s).length ≤ s.length := QParse.skip_length s

theorem isVar_of_sym {y : Text} (hv : isVarSym y = true) : IsVar y := by
  cases y with
  | nil => simp [isVarSym] at hv
  | cons c t => simp [isVarSym] at hv; exact ⟨t, by rw [hv]⟩

theorem varOf_isVar {v : Edn} {x : Text} (h : varOf v = some x) : IsVar x := by
  cases v <;> simp only [varOf, reduceCtorEq] at h
  split at h
  · cases h; exact isVar_of_sym (by assumption)
  · simp at h

theorem variable_below (s : Text) : Below s.length IsVar (variable_ s) :=
  (val_below s).accept fun _ _ _ h => varOf_isVar h

theorem srcOfSym_ok {x : Text} {s : Src} (h : srcOfSym x = some s) : SrcOk (some s) := by
  intro n hn
  cases hn
  unfold srcOfSym at h
  split at h
  · rename_i hs
    split at h
    · simp at h
    · rename_i hx
      simp only [Option.some.injEq, Src.named.injEq] at h
      rintro rfl
      cases x with
      | nil => simp [isSrcSym] at hs
      | cons c t =>
        simp [isSrcSym] at hs
        simp at h
        exact hx (by rw [hs, h])
  · simp at h

theorem srcVar_below (s : Text) : Below s.length (fun x => SrcOk (some x)) (srcVar s) :=
  (val_below s).accept fun v x _ h => by
    cases v <;> simp only [srcOf, reduceCtorEq] at h
    exact srcOfSym_ok h

theorem nonVal_ok {v : Edn} {x : NonVal} (h : nonValOf v = some x) : x.Ok := by
  cases v <;> simp only [nonValOf, reduceCtorEq] at h
  · split at h
    · cases h; assumption
    · simp at h
  · split at h
    · cases h; trivial
    · split at h
      · cases h; exact isVar_of_sym (by assumption)
      · simp at h
  · cases h; trivial

theorem valOf_ok {v : Edn} {x : Val} (h : valOf v = some x) : x.VarOk := by
  rintro y rfl
  cases v <;> simp only [valOf, reduceCtorEq, Option.some.injEq] at h
  · split at h
    · simp at h
    · split at h
      · cases h; exact isVar_of_sym (by assumption)
      · simp at h
  · split at h <;> simp at h

theorem argOf_ok {v : Edn} {x : Arg} (h : argOf v = some x) : x.Ok := by
  cases v <;> simp only [argOf, reduceCtorEq, Option.some.injEq] at h
  case plainSymbol y =>
    split at h
    · cases hs : srcOfSym y with
      | none => simp [hs] at h
      | some s =>
        simp [hs] at h
        subst h
        cases s with
        | dflt => trivial
        | named n => exact srcOfSym_ok hs n rfl
    · split at h
      · cases h; exact isVar_of_sym (by assumption)
      · simp at h
  all_goals (subst h; trivial)

theorem fnArgN_below (n : Nat) (s : Text) (h : s.length < n) : Below s.length Arg.Ok (fnArgN n s) := by
  induction n generalizing s with
  | zero => omega
  | succ n ih =>
    rw [fnArgN]
    refine ((val_below s).accept fun _ _ _ h => argOf_ok h).orElse ?_
    refine Below.expect fun t ht => ?_
    have h1 := skip_le s
    simp at ht
    refine (below_many1 (P := Arg.Ok) fun u hu => ih u (by omega)).bind fun l u hu hl => ?_
    refine Below.expect fun u' hu' => ?_
    simp at hu'
    have := skip_le u'
    exact below_ok (by omega) ⟨hl.1, (oks_iff l).mpr hl.2⟩

theorem fnArg_below (s : Text) : Below s.length Arg.Ok (fnArg s) := fnArgN_below _ s (by omega)

theorem queryFunction_below (s : Text) : Below s.length (fun f => f ≠ []) (queryFunction s) := by
  unfold queryFunction
  split
  · rename_i n rest h
    have h1 := symbolName_length h
    have h2 := skip_le s
    have h3 := skip_le rest
    refine below_ok (by omega) ?_
    rintro rfl
    cases hs : skip s with
    | nil => rw [hs] at h; simp [symbolName] at h
    | cons c t => rw [hs] at h; simp only [symbolName] at h; split at h <;> simp at h
  · trivial

theorem keyword_below (s : Text) : Below s.length (fun _ => True) (rawKeyword s) := by
  have h : Shrinks s (EdnParse.keyword s) := by
    unfold EdnParse.keyword
    split
    · exact shrinks_fail
    · rename_i r hl
      have := lit_length hl
      split
      · rename_i hn
        have := nsPart_length hn
        split
        · rename_i hs
          have := symbolName_length hs
          exact shrinks_build (by omega)
        · exact shrinks_fail
      · split
        · rename_i hs
          have := symbolName_length hs
          exact shrinks_build (by omega)
        · exact shrinks_fail
  unfold rawKeyword
  refine Below.accept (P := fun _ => True) ?_ fun _ _ _ _ => trivial
  cases he : EdnParse.keyword s with
  | ok v r => exact ⟨h.2 v r he, trivial⟩
  | stuck => exact absurd he h.1
  | _ => trivial

theorem nsKeyword_below (s : Text) : Below s.length (fun k => k.isNamespaced = true) (rawNsKeyword s) := by
  unfold rawNsKeyword
  refine Below.expect fun t ht => ?_
  simp at ht
  split
  · rename_i ns r hn
    have h1 := nsPart_length hn
    split
    · rename_i n rest hs
      have h2 := symbolName_length hs
      cases hk : NName.namespaced ns n with
      | ok k =>
        simp only [EdnParse.build, QParse.accept, QParse.bind, kwOf]
        refine below_ok (by omega) ?_
        rw [namespaced_eq hk]
        have : ns ≠ [] := by
          rintro rfl
          simp [NName.namespaced] at hk
        simp [NName.isNamespaced]
        exact List.length_pos_iff.mpr this
      | err e => simp [EdnParse.build, QParse.accept, QParse.bind, Below]
      | panic => simp [EdnParse.build, QParse.accept, QParse.bind, Below]
    · trivial
  · trivial

theorem fwdOf_ok {k k' : NName} (h : fwdOf k = some k') : k' = k ∧ k.isForward = true := by
  unfold fwdOf at h
  split at h
  · cases h; exact ⟨rfl, by assumption⟩
  · simp at h

theorem pullAlias_below (s : Text) : Below s.length (fun k => k.isForward = true) (pullAlias s) := by
  unfold pullAlias
  refine Below.expect fun t ht => ?_
  simp at ht
  have h1 := skip_le t
  refine Below.bind (P := fun k => k.isForward = true) ((keyword_below (skip t)).accept fun _ _ _ h => ?_) fun k u hu hk => ?_
  · have := fwdOf_ok h; rw [this.1]; exact this.2
  · have := skip_le u
    exact below_ok (by omega) hk

theorem pullAttribute_below (s : Text) : Below s.length PullAttr.Ok (pullAttribute s) := by
  unfold pullAttribute
  have h0 := skip_le s
  refine Below.orElse (Below.expect fun t ht => ?_) ?_
  · simp at ht
    have h1 := skip_le t
    exact below_ok (by omega) trivial
  · refine Below.bind (P := fun k => k.isNamespaced = true ∧ k.isForward = true)
      ((nsKeyword_below (skip s)).accept fun _ _ hn h => ?_) fun k t ht hk => ?_
    · obtain ⟨rfl, h⟩ := fwdOf_ok h; exact ⟨hn, h⟩
    · have h1 := skip_le t
      refine Below.bind (m := (skip s).length) (Below.opt (P := fun k => k.isForward = true) ?_ (by omega)) fun a u hu ha => ?_
      · exact (pullAlias_below (skip t)).mono (by omega) fun _ h => h
      · exact below_ok (by omega) ⟨hk.1, hk.2, ha⟩

theorem findElem_below (s : Text) : Below s.length Elem.Wf (findElem s) := by
  unfold findElem
  have h0 := skip_le s
  refine Below.orElse ((variable_below (skip s)).bind fun x t ht hx => ?_) (Below.orElse ?_ (Below.orElse ?_ ?_))
  · have := skip_le t
    exact below_ok (by omega) hx
  · refine Below.expect fun t ht => Below.expect fun u hu => ?_
    simp at ht hu
    have h1 := skip_le t
    refine (variable_below u).bind fun x v hv hx => Below.expect fun w hw => ?_
    simp at hw
    have := skip_le w
    exact below_ok (by omega) hx
  · refine Below.expect fun t ht => Below.expect fun u hu => ?_
    simp at ht hu
    have h1 := skip_le t
    refine (variable_below u).bind fun x v hv hx => Below.expect fun w hw => ?_
    simp at hw
    refine (below_many1 (P := PullAttr.Ok) fun z _ => pullAttribute_below z).bind fun ps z hz hps => ?_
    refine Below.expect fun z1 hz1 => Below.expect fun z2 hz2 => ?_
    simp at hz1 hz2
    have := skip_le z1
    have := skip_le z2
    exact below_ok (by omega) ⟨hx, hps⟩
  · refine Below.expect fun t ht => ?_
    simp at ht
    refine (queryFunction_below t).bind fun f u hu hf => ?_
    refine (below_many (P := Arg.Ok) fun z _ => fnArg_below z).bind fun args v hv ha => Below.expect fun w hw => ?_
    simp at hw
    have := skip_le w
    exact below_ok (by omega) ⟨hf, (oks_iff args).mpr ha⟩

theorem findSpec_below (s : Text) : Below s.length Find.Wf (findSpec s) := by
  unfold findSpec
  have h0 := skip_le s
  refine Below.orElse ((findElem_below s).bind fun x t ht hx => Below.expect fun u hu => ?_) (Below.orElse ?_ (Below.orElse ?_ ?_))
  · simp at hu
    have := skip_le u
    exact below_ok (by omega) hx
  · refine (below_many1 (P := Elem.Wf) fun z _ => findElem_below z).bind fun l t ht hl => ?_
    exact below_ok ht hl
  · refine Below.expect fun t ht => ?_
    simp at ht
    refine (findElem_below t).bind fun e u hu he => Below.expect fun v hv => Below.expect fun w hw => ?_
    simp at hv hw
    have := skip_le u
    have := skip_le v
    have := skip_le w
    exact below_ok (by omega) he
  · refine Below.expect fun t ht => ?_
    simp at ht
    refine (below_many1 (P := Elem.Wf) fun z _ => findElem_below z).bind fun l u hu hl => Below.expect fun v hv => ?_
    simp at hv
    have := skip_le v
    exact below_ok (by omega) hl

theorem shrinks_limitInt (s : Text) : Shrinks s (limitInt s) := by
  unfold limitInt
  refine shrinks_orElse ?_ (shrinks_orElse ?_ (shrinks_orElse ?_ ?_))
  · unfold octalinteger
    split
    · exact shrinks_fail
    · rename_i r hl
      have := lit_length hl
      split
      · exact shrinks_fail
      · have := spanC_length isOctal r
        exact shrinks_i64 (by simp at *; omega)
  · unfold hexinteger
    split
    · exact shrinks_fail
    · rename_i r hl
      have := lit_length hl
      split
      · exact shrinks_fail
      · have := spanC_length isHex r
        exact shrinks_i64 (by simp at *; omega)
  · unfold basedinteger
    split
    · exact shrinks_fail
    · rename_i b r hv
      have := validbase_length hv
      split
      · exact shrinks_fail
      · rename_i r' hl
        have := lit_length hl
        split
        · exact shrinks_fail
        · have := spanC_length isAlnum r'
          exact shrinks_i64 (by omega)
  · unfold EdnParse.integer; simp only
    split
    · exact shrinks_fail
    · rename_i h
      split
      · exact shrinks_fail
      · have := spanC_lt h
        have := optSign_length s
        exact shrinks_i64 (by omega)

theorem limit_below (s : Text) : Below s.length LimitOk (limit s) := by
  unfold limit
  have h0 := skip_le s
  refine Below.orElse ((variable_below (skip s)).bind fun x t ht hx => ?_) ?_
  · have := skip_le t
    exact below_ok (by omega) hx
  · have h : Below (skip s).length (fun _ => True) (limitInt (skip s)) := by
      have h := shrinks_limitInt (skip s)
      cases he : limitInt (skip s) with
      | ok v r => exact ⟨h.2 v r he, trivial⟩
      | stuck => exact absurd he h.1
      | _ => trivial
    refine Below.bind (P := LimitOk) (h.accept fun v l _ hl => ?_) fun l t ht hl => ?_
    · cases v <;> simp only [limitOf, reduceCtorEq] at hl
      split at hl
      · cases hl; simp only [LimitOk]; omega
      · simp at hl
    · have := skip_le t
      exact below_ok (by omega) hl

theorem order_below (s : Text) : Below s.length (fun o => IsVar o.2) (order s) := by
  unfold order
  have h0 := skip_le s
  refine Below.orElse ?_ (Below.orElse ?_ ?_)
  · refine Below.expect fun t ht => Below.expect fun u hu => ?_
    simp at ht hu
    have h1 := skip_le t
    refine (variable_below u).bind fun x v hv hx => Below.expect fun w hw => ?_
    simp at hw
    have := skip_le w
    exact below_ok (by omega) hx
  · refine Below.expect fun t ht => Below.expect fun u hu => ?_
    simp at ht hu
    have h1 := skip_le t
    refine (variable_below u).bind fun x v hv hx => Below.expect fun w hw => ?_
    simp at hw
    have := skip_le w
    exact below_ok (by omega) hx
  · exact (variable_below s).bind fun x t ht hx => below_ok ht hx

theorem toVal_varOk {e : NonVal} (h : e.Ok) : e.toVal.VarOk := by
  intro x hx
  cases e <;> simp [NonVal.toVal] at hx
  subst hx; exact h

theorem toNonVal_ok {v : Val} {e : NonVal} (h : v.VarOk) (he : v.toNonVal = some e) : e.Ok := by
  cases v <;> simp only [Val.toNonVal, reduceCtorEq, Option.some.injEq] at he
  · subst he; trivial
  · subst he; exact h _ rfl
  · split at he
    · cases he; assumption
    · simp at he
  · subst he; trivial

theorem patternOf_below {src : Option Src} {e a : NonVal} {v : Option Val} {tx : Option NonVal} {rest : Text} {m : Nat}
    (hs : SrcOk src) (he : e.Ok) (ha : a.Ok) (hv : ∀ x, v = some x → x.VarOk) (ht : ∀ x, tx = some x → x.Ok) (hl : rest.length < m) :
    Below m Clause.Wf (patternOf src e a v tx rest) := by
  have hv' : (v.getD .placeholder).VarOk := by
    cases v with
    | none => intro x hx; simp at hx
    | some v => exact hv v rfl
  have ht' : (tx.getD .placeholder).Ok := by
    cases tx with
    | none => trivial
    | some v => exact ht v rfl
  unfold patternOf
  cases hp : Pat.new src e a (v.getD .placeholder) (tx.getD .placeholder) with
  | ok o =>
    cases o with
    | none => trivial
    | some p =>
      refine below_ok hl ?_
      unfold Pat.new at hp
      split at hp
      · split at hp
        · split at hp
          · rename_i ve hve
            split at hp <;> simp at hp
            subst hp
            exact ⟨hs, toNonVal_ok hv' hve, trivial, toVal_varOk he, ht'⟩
          · simp at hp
        · simp at hp; subst hp; exact ⟨hs, he, ha, hv', ht'⟩
      · simp at hp; subst hp; exact ⟨hs, he, ha, hv', ht'⟩
  | err x => trivial
  | panic => trivial

theorem pattern_below (s : Text) : Below s.length Clause.Wf (pattern s) := by
  unfold pattern
  have h0 := skip_le s
  refine Below.expect fun t ht => ?_
  simp at ht
  refine (Below.opt (m := t.length + 1) ((srcVar_below t).mono (by omega) fun _ h => h) (by omega)).bind fun src u hu hs => ?_
  refine Below.bind (P := NonVal.Ok) ((val_below u).accept fun _ _ _ h => nonVal_ok h) fun e v hv he => ?_
  refine Below.bind (P := NonVal.Ok) ((val_below v).accept fun _ _ _ h => nonVal_ok h) fun a w hw ha => ?_
  refine (Below.opt (m := w.length + 1) (P := Val.VarOk)
    (((val_below w).accept fun _ _ _ h => valOf_ok h).mono (by omega) fun _ h => h) (by omega)).bind fun o z hz ho => ?_
  refine (Below.opt (m := z.length + 1) (P := NonVal.Ok)
    (((val_below z).accept fun _ _ _ h => nonVal_ok h).mono (by omega) fun _ h => h) (by omega)).bind fun tx y hy htx => ?_
  refine Below.expect fun r hr => ?_
  simp at hr
  have := skip_le r
  refine patternOf_below ?_ he ha ho htx (by omega)
  intro n hn
  exact hs _ hn n rfl

theorem ruleVars_below (s : Text) : Below s.length (fun xs => xs ≠ [] ∧ xs.Nodup ∧ ∀ x ∈ xs, IsVar x) (ruleVars s) := by
  refine (below_many1 (P := IsVar) fun z _ => variable_below z).accept fun l xs hl h => ?_
  unfold uniqueOf at h
  split at h
  · cases h; exact ⟨hl.1, by assumption, hl.2⟩
  · simp at h

theorem varOrPlaceholder_below (s : Text) : Below s.length (fun o => ∀ x, o = some x → IsVar x) (varOrPlaceholder s) := by
  unfold varOrPlaceholder
  have h0 := skip_le s
  refine Below.orElse ((variable_below s).bind fun x t ht hx => below_ok ht ?_) (Below.expect fun t ht => ?_)
  · rintro y ⟨⟩; exact hx
  · simp at ht
    have := skip_le t
    exact below_ok (by omega) (by simp)

theorem binding_below (s : Text) : Below s.length BindOk (binding s) := by
  unfold binding
  have h0 := skip_le s
  have hl : ∀ {l : List (Option Text)}, (l ≠ [] ∧ ∀ a ∈ l, ∀ x, a = some x → IsVar x) → l ≠ [] ∧ ∀ x, some x ∈ l → IsVar x :=
    fun h => ⟨h.1, fun x hx => h.2 _ hx x rfl⟩
  refine Below.orElse ?_ (Below.orElse ?_ (Below.orElse ?_ ?_))
  · refine Below.expect fun t ht => Below.expect fun u hu => ?_
    simp at ht hu
    have h1 := skip_le t
    refine (below_many1 fun z _ => varOrPlaceholder_below z).bind fun l v hv hl' => ?_
    refine Below.expect fun w hw => Below.expect fun z hz => ?_
    simp at hw hz
    have := skip_le w
    have := skip_le z
    exact below_ok (by omega) (hl hl')
  · refine Below.expect fun t ht => ?_
    simp at ht
    refine (variable_below t).bind fun x u hu hx => Below.expect fun v hv => Below.expect fun w hw => ?_
    simp at hv hw
    have := skip_le v
    have := skip_le w
    exact below_ok (by omega) ⟨by simp [Binding.vars], by simpa [Binding.vars] using hx⟩
  · refine Below.expect fun t ht => ?_
    simp at ht
    refine (below_many1 fun z _ => varOrPlaceholder_below z).bind fun l v hv hl' => ?_
    refine Below.expect fun w hw => ?_
    simp at hw
    have := skip_le w
    exact below_ok (by omega) (hl hl')
  · exact (variable_below s).bind fun x u hu hx =>
      below_ok hu ⟨by simp [Binding.vars], by simpa [Binding.vars] using hx⟩

theorem wfAll_iff (l : List Clause) : Clause.WfAll l ↔ ∀ c ∈ l, c.Wf := by
  induction l with
  | nil => simp [Clause.WfAll]
  | cons c l ih => simp [Clause.WfAll, ih]

theorem armsWf_iff (l : List OrArm) : OrArm.WfAll l ↔ ∀ c ∈ l, c.Wf := by
  induction l with
  | nil => simp [OrArm.WfAll]
  | cons c l ih => simp [OrArm.WfAll, ih]

theorem orWhere_below {wc : Text → PRes Clause} {s : Text} (h : ∀ t : Text, t.length ≤ s.length → Below t.length Clause.Wf (wc t)) :
    Below s.length OrArm.Wf (orWhere wc s) := by
  unfold orWhere
  have h0 := skip_le s
  refine Below.orElse ((h s (Nat.le_refl _)).bind fun c t ht hc => below_ok ht hc) ?_
  refine Below.expect fun t ht => Below.expect fun u hu => ?_
  simp at ht hu
  have h1 := skip_le t
  refine (below_many1 (P := Clause.Wf) fun z hz => h z (by omega)).bind fun l v hv hl => Below.expect fun w hw => ?_
  simp at hw
  have := skip_le w
  exact below_ok (by omega) ⟨hl.1, (wfAll_iff l).mpr hl.2⟩

theorem clauseN_below (n : Nat) (s : Text) (hn : s.length < n) : Below s.length Clause.Wf (clauseN n s) := by
  induction n generalizing s with
  | zero => omega
  | succ n ih =>
    rw [clauseN]
    have h0 := skip_le s
    have harm : ∀ t : Text, t.length < s.length → ∀ u : Text, u.length ≤ t.length →
        Below u.length OrArm.Wf (orWhere (clauseN n) u) := fun t ht u hu =>
      orWhere_below fun z hz => ih z (by omega)
    refine Below.orElse (pattern_below s) (Below.orElse ?_ (Below.orElse ?_ (Below.orElse ?_ (Below.orElse ?_
      (Below.orElse ?_ (Below.orElse ?_ ?_))))))
    · unfold orJoinClause
      refine Below.expect fun t ht => Below.expect fun u hu => Below.expect fun v hv => ?_
      simp at ht hu hv
      have h1 := skip_le t
      have h2 := skip_le u
      refine (ruleVars_below v).bind fun xs w hw hx => Below.expect fun y hy => ?_
      simp at hy
      refine (below_many1 (harm y (by omega))).bind fun l z hz hl => Below.expect fun z' hz' => ?_
      simp at hz'
      have := skip_le z'
      exact below_ok (by omega) ⟨by rintro xs ⟨⟩; exact hx, hl.1, (armsWf_iff l).mpr hl.2⟩
    · unfold orClause
      refine Below.expect fun t ht => Below.expect fun y hy => ?_
      simp at ht hy
      have h1 := skip_le t
      refine (below_many1 (harm y (by omega))).bind fun l z hz hl => Below.expect fun z' hz' => ?_
      simp at hz'
      have := skip_le z'
      exact below_ok (by omega) ⟨by simp, hl.1, (armsWf_iff l).mpr hl.2⟩
    · unfold notJoinClause
      refine Below.expect fun t ht => Below.expect fun u hu => Below.expect fun v hv => ?_
      simp at ht hu hv
      have h1 := skip_le t
      have h2 := skip_le u
      refine (ruleVars_below v).bind fun xs w hw hx => Below.expect fun y hy => ?_
      simp at hy
      refine (below_many1 (P := Clause.Wf) fun z hz => ih z (by omega)).bind fun l z hz hl => Below.expect fun z' hz' => ?_
      simp at hz'
      have := skip_le z'
      exact below_ok (by omega) ⟨by rintro xs ⟨⟩; exact hx, hl.1, (wfAll_iff l).mpr hl.2⟩
    · unfold notClause
      refine Below.expect fun t ht => Below.expect fun y hy => ?_
      simp at ht hy
      have h1 := skip_le t
      refine (below_many1 (P := Clause.Wf) fun z hz => ih z (by omega)).bind fun l z hz hl => Below.expect fun z' hz' => ?_
      simp at hz'
      have := skip_le z'
      exact below_ok (by omega) ⟨by simp, hl.1, (wfAll_iff l).mpr hl.2⟩
    · unfold typeAnnotation
      refine Below.expect fun t ht => Below.expect fun u hu => Below.expect fun v hv => ?_
      simp at ht hu hv
      have h1 := skip_le t
      have h2 := skip_le u
      refine (variable_below v).bind fun x w hw hx => ?_
      have h3 := skip_le w
      refine (keyword_below (skip w)).bind fun k z hz _ => Below.expect fun z' hz' => Below.expect fun z'' hz'' => ?_
      simp at hz' hz''
      have := skip_le z
      have := skip_le z'
      have := skip_le z''
      exact below_ok (by omega) hx
    · unfold pred
      refine Below.expect fun t ht => Below.expect fun u hu => ?_
      simp at ht hu
      have h1 := skip_le t
      refine (queryFunction_below u).bind fun f v hv hf => ?_
      refine (below_many (P := Arg.Ok) fun z _ => fnArg_below z).bind fun args w hw ha => ?_
      refine Below.expect fun z hz => Below.expect fun z' hz' => ?_
      simp at hz hz'
      have := skip_le z
      have := skip_le z'
      exact below_ok (by omega) ⟨hf, (oks_iff args).mpr ha⟩
    · unfold whereFn
      refine Below.expect fun t ht => Below.expect fun u hu => ?_
      simp at ht hu
      have h1 := skip_le t
      refine (queryFunction_below u).bind fun f v hv hf => ?_
      refine (below_many (P := Arg.Ok) fun z _ => fnArg_below z).bind fun args w hw ha => ?_
      refine Below.expect fun z hz => ?_
      simp at hz
      have h2 := skip_le z
      refine (binding_below (skip z)).bind fun b y hy hb => Below.expect fun z' hz' => ?_
      simp at hz'
      have := skip_le z'
      exact below_ok (by omega) ⟨hf, (oks_iff args).mpr ha, hb⟩

theorem clause_below (s : Text) : Below s.length Clause.Wf (clause s) := clauseN_below _ s (by omega)

def Part.Wf : Part → Prop
  | .find f => f.Wf
  | .withVars l => ∀ x ∈ l, IsVar x
  | .inVars l => ∀ x ∈ l, IsVar x
  | .limit l => LimitOk l
  | .clauses l => l ≠ [] ∧ Clause.WfAll l
  | .order l => l ≠ [] ∧ ∀ o ∈ l, IsVar o.2

theorem queryPart_below (s : Text) : Below s.length Part.Wf (queryPart s) := by
  unfold queryPart
  have h0 := skip_le s
  refine Below.orElse ?_ (Below.orElse ?_ (Below.orElse ?_ (Below.orElse ?_ (Below.orElse ?_ ?_))))
  · refine Below.expect fun t ht => ?_
    simp at ht
    exact (findSpec_below t).bind fun x u hu hx => below_ok (by omega) hx
  · refine Below.expect fun t ht => ?_
    simp at ht
    exact (below_many1 (P := IsVar) fun z _ => variable_below z).bind fun x u hu hx => below_ok (by omega) hx.2
  · refine Below.expect fun t ht => ?_
    simp at ht
    exact (limit_below t).bind fun x u hu hx => below_ok (by omega) hx
  · refine Below.expect fun t ht => ?_
    simp at ht
    exact (below_many1 fun z _ => order_below z).bind fun x u hu hx => below_ok (by omega) hx
  · refine Below.expect fun t ht => ?_
    simp at ht
    exact (below_many1 fun z _ => clause_below z).bind fun x u hu hx =>
      below_ok (by omega) ⟨hx.1, (wfAll_iff x).mpr hx.2⟩
  · refine Below.expect fun t ht => ?_
    simp at ht
    exact (below_many1 (P := IsVar) fun z _ => variable_below z).bind fun x u hu hx => below_ok (by omega) hx.2

theorem fromParts_wf {ps : List Part} {q : Query} (hp : ∀ p ∈ ps, p.Wf) (h : fromParts ps = some q) : q.Wf := by
  have h := (fromParts_assembled ps q).mp h
  refine ⟨hp _ ((h.find _).mpr rfl), ?_, ?_, ?_, hp _ ((h.clauses _).mpr rfl), fun l hl => hp _ ((h.order l).mpr hl)⟩
  · rcases h.withVars with ⟨-, h⟩ | h
    · simp [h]
    · exact hp _ ((h _).mpr rfl)
  · rcases h.inVars with ⟨-, h⟩ | h
    · simp [h]
    · exact hp _ ((h _).mpr rfl)
  · rcases h.limit with ⟨-, h⟩ | h
    · rw [h]; trivial
    · exact hp _ ((h _).mpr rfl)

/-- Any text. -/
theorem parseQuery_below (s : Text) : Below (s.length + 1) Query.Wf (parseQuery s) := by
  have h : Below s.length Query.Wf (expect "[" (skip s) fun r => bind (many1 (queryPart) r) fun ps r => expect "]" r fun r =>
      accept (.ok ps (skip r)) fromParts) := by
    have h0 := skip_le s
    refine Below.expect fun t ht => ?_
    simp at ht
    refine (below_many1 fun z _ => queryPart_below z).bind fun ps u hu hps => Below.expect fun v hv => ?_
    simp at hv
    have := skip_le v
    exact Below.accept (P := fun ps => ∀ p ∈ ps, Part.Wf p) (below_ok (by omega) hps.2) fun ps q hp h => fromParts_wf hp h
  unfold parseQuery
  split
  · rename_i he; rw [he] at h; exact ⟨by simp, h.2⟩
  · trivial
  · exact h.mono (by omega) fun _ h => h

end
end QParse
end Mentat
