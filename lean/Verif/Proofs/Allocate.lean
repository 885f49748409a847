import Verif.Proofs.UpsertLoop
/- Allocation of entids to the tempids that did not upsert. -/
namespace Mentat

theorem Linked.mono {α : Type} {R R' : α → α → Prop} (h : ∀ x y, R x y → Linked R' x y) {x y : α}
    (hl : Linked R x y) : Linked R' x y := by
  induction hl with
  | step h' => exact h _ _ h'
  | refl x => exact .refl x
  | symm _ ih => exact .symm ih
  | trans _ _ ih1 ih2 => exact .trans ih1 ih2

/-! ### Union-find -/

structure UFInv (K : List TempId) (uf : UF) (R : TempId → TempId → Prop) : Prop where
  keys : AMap.keys uf = K
  dom : ∀ x y, R x y → x ∈ K ∧ y ∈ K
  classes : ∀ t ∈ K, ∀ t' ∈ K, UF.find uf t = UF.find uf t' ↔ Linked R t t'

theorem get_map_val {α β γ : Type} [DecidableEq α] (f : β → γ) (m : AMap α β) (k : α) :
    AMap.get (List.map (fun (p : α × β) => (p.1, f p.2)) m) k = (AMap.get m k).map f := by
  induction m with
  | nil => rfl
  | cons p r ih =>
    simp only [List.map_cons, AMap.get_cons]
    obtain ⟨k', v⟩ := p
    simp only [AMap.get_cons]
    split
    · simp
    · exact ih

theorem find_union {uf : UF} {x y t : TempId} (ht : t ∈ AMap.keys uf) :
    UF.find (UF.union uf x y) t =
      if UF.find uf t = UF.find uf y then UF.find uf x else UF.find uf t := by
  have : (AMap.get uf t).isSome := AMap.get_isSome_iff.mpr ht
  obtain ⟨r, hr⟩ := Option.isSome_iff_exists.mp this
  have hfr : UF.find uf t = r := by simp [UF.find, hr]
  have hg : AMap.get (UF.union uf x y) t =
      some (if r = UF.find uf y then UF.find uf x else r) := by
    have := get_map_val (fun r => if r = UF.find uf y then UF.find uf x else r) uf t
    rw [hr] at this
    exact this
  rw [hfr]
  generalize UF.union uf x y = uf' at hg
  unfold UF.find
  rw [hg]
  rfl

theorem ufInv_union {K uf R x y} (hi : UFInv K uf R) (hx : x ∈ K) (hy : y ∈ K) :
    UFInv K (UF.union uf x y) (fun a b => R a b ∨ (a = x ∧ b = y)) := by
  have hkeys : AMap.keys (UF.union uf x y) = K := by
    rw [← hi.keys]; simp [UF.union, AMap.keys]
  refine ⟨hkeys, ?_, ?_⟩
  · rintro a b (h | ⟨rfl, rfl⟩)
    · exact hi.dom a b h
    · exact ⟨hx, hy⟩
  · have hf : ∀ t ∈ K, UF.find (UF.union uf x y) t =
        if UF.find uf t = UF.find uf y then UF.find uf x else UF.find uf t := by
      intro t ht; exact find_union (by rw [hi.keys]; exact ht)
    have up : ∀ {a b}, Linked R a b → Linked (fun a b => R a b ∨ (a = x ∧ b = y)) a b :=
      fun h => h.mono fun a b h => .step (Or.inl h)
    have hxy : Linked (fun a b => R a b ∨ (a = x ∧ b = y)) x y := .step (Or.inr ⟨rfl, rfl⟩)
    have wit : ∀ t ∈ K, ∃ w ∈ K, UF.find (UF.union uf x y) t = UF.find uf w ∧
        Linked (fun a b => R a b ∨ (a = x ∧ b = y)) t w := by
      intro t ht
      rw [hf t ht]
      split
      · rename_i h
        exact ⟨x, hx, rfl, (up ((hi.classes t ht y hy).mp h)).trans hxy.symm⟩
      · exact ⟨t, ht, rfl, .refl t⟩
    intro t ht t' ht'
    constructor
    · intro h
      obtain ⟨w, hw, h1, l1⟩ := wit t ht
      obtain ⟨w', hw', h1', l1'⟩ := wit t' ht'
      rw [h1, h1'] at h
      exact l1.trans ((up ((hi.classes w hw w' hw').mp h)).trans l1'.symm)
    · intro h
      have key : ∀ a b, Linked (fun a b => R a b ∨ (a = x ∧ b = y)) a b →
          a = b ∨ (a ∈ K ∧ b ∈ K ∧ UF.find (UF.union uf x y) a = UF.find (UF.union uf x y) b) := by
        intro a b h
        induction h with
        | refl a => exact Or.inl rfl
        | symm _ ih =>
          rcases ih with h | ⟨h1, h2, h3⟩
          · exact Or.inl h.symm
          · exact Or.inr ⟨h2, h1, h3.symm⟩
        | trans _ _ ih1 ih2 =>
          rcases ih1 with rfl | ⟨h1, h2, h3⟩
          · exact ih2
          · rcases ih2 with rfl | ⟨k1, k2, k3⟩
            · exact Or.inr ⟨h1, h2, h3⟩
            · exact Or.inr ⟨h1, k2, h3.trans k3⟩
        | @step a b h =>
          rcases h with h | ⟨rfl, rfl⟩
          · obtain ⟨ha, hb⟩ := hi.dom a b h
            refine Or.inr ⟨ha, hb, ?_⟩
            have := (hi.classes a ha b hb).mpr (.step h)
            rw [hf a ha, hf b hb, this]
          · refine Or.inr ⟨hx, hy, ?_⟩
            rw [hf _ hx, hf _ hy]; simp
      rcases key t t' h with rfl | ⟨-, -, h⟩
      · rfl
      · exact h

theorem UFInv.congr {K uf R R'} (hi : UFInv K uf R) (h : ∀ x y, R x y ↔ R' x y) :
    UFInv K uf R' := by
  have : R = R' := by funext x y; exact propext (h x y)
  rw [← this]; exact hi

theorem ufInv_foldl {K : List TempId} {h : TempId} (hh : h ∈ K) : ∀ {l : List TempId} {uf R}, UFInv K uf R → (∀ x ∈ l, x ∈ K) →
    UFInv K (l.foldl (fun uf x => UF.union uf h x) uf) (fun a b => R a b ∨ (a = h ∧ b ∈ l)) := by
  intro l
  induction l with
  | nil => intro uf R hi _; exact hi.congr (by simp)
  | cons x r ih =>
    intro uf R hi hl
    have := ih (ufInv_union hi hh (hl x (by simp))) (fun y hy => hl y (by simp [hy]))
    refine this.congr ?_
    intro a b; simp only [List.mem_cons]; grind

/-- members of a group are linked to its first element -/
def GroupRel (l : List TempId) (a b : TempId) : Prop := l.head? = some a ∧ b ∈ l

theorem ufInv_group {K l uf R} (hi : UFInv K uf R) (hl : ∀ x ∈ l, x ∈ K) :
    UFInv K (UF.unionGroup uf l) (fun a b => R a b ∨ GroupRel l a b) := by
  cases l with
  | nil => exact hi.congr (by simp [GroupRel])
  | cons t ts =>
    refine (ufInv_foldl (hl t (by simp)) hi hl).congr ?_
    intro a b; simp only [GroupRel, List.head?_cons, Option.some.injEq]
    grind

theorem ufInv_groups {K} : ∀ {ls : List (List TempId)} {uf R}, UFInv K uf R →
    (∀ l ∈ ls, ∀ x ∈ l, x ∈ K) →
    UFInv K (ls.foldl UF.unionGroup uf) (fun a b => R a b ∨ ∃ l ∈ ls, GroupRel l a b) := by
  intro ls
  induction ls with
  | nil => intro uf R hi _; exact hi.congr (by simp)
  | cons l r ih =>
    intro uf R hi hl
    have := ih (ufInv_group hi (hl l (by simp))) (fun y hy => hl y (by simp [hy]))
    refine this.congr ?_
    intro a b; simp only [List.mem_cons, exists_eq_or_imp, or_assoc]

theorem ufInv_init (K : List TempId) :
    UFInv K (K.map fun t => (t, t)) (fun _ _ => False) := by
  have hf : ∀ t ∈ K, UF.find (K.map fun t => (t, t)) t = t := by
    intro t ht
    have : AMap.get (K.map fun t => (t, t)) t = some t := by
      induction K with
      | nil => simp at ht
      | cons x r ih =>
        simp only [List.map_cons, AMap.get_cons]
        split
        · rename_i h; rw [h]
        · rename_i h
          simp only [List.mem_cons] at ht
          exact ih (ht.resolve_left fun h' => h h'.symm)
    simp [UF.find, this]
  refine ⟨by simp [AMap.keys, Function.comp_def], by simp, ?_⟩
  intro t ht t' ht'
  rw [hf t ht, hf t' ht']
  constructor
  · rintro rfl; exact .refl t
  · intro h
    induction h with
    | step h => exact h.elim
    | refl => rfl
    | symm _ ih => exact (ih ht' ht).symm
    | @trans a b c h1 h2 ih1 ih2 =>
      have key : ∀ a b : TempId, Linked (fun _ _ => False) a b → a = b := by
        intro a b h
        induction h with
        | step h => exact h.elim
        | refl => rfl
        | symm _ ih => exact ih.symm
        | trans _ _ ih1 ih2 => exact ih1.trans ih2
      exact (key _ _ h1).trans (key _ _ h2)

/-! ### Dense labels -/

theorem indexOf?_getElem {r : TempId} {l : List TempId} {i : Nat} (h : indexOf? r l = some i) :
    l[i]? = some r := by
  induction l generalizing i with
  | nil => simp [indexOf?] at h
  | cons x xs ih =>
    unfold indexOf? at h
    split at h
    · rename_i hx; simp at h; subst h; simp [hx]
    · rw [Option.map_eq_some_iff] at h
      obtain ⟨j, hj, rfl⟩ := h
      simpa using ih hj

theorem indexOf?_isSome {r : TempId} {l : List TempId} (h : r ∈ l) : ∃ i, indexOf? r l = some i := by
  induction l with
  | nil => simp at h
  | cons x xs ih =>
    unfold indexOf?
    split
    · exact ⟨0, rfl⟩
    · rename_i hx
      simp only [List.mem_cons] at h
      obtain ⟨i, hi⟩ := ih (h.resolve_left fun h' => hx h'.symm)
      exact ⟨i + 1, by simp [hi]⟩

structure LabelInv (uf : UF) (reps : List TempId) (acc : AMap TempId Nat) : Prop where
  nodup : reps.Nodup
  at_ : ∀ t i, AMap.get acc t = some i → reps[i]? = some (UF.find uf t)
  len : reps.length ≤ acc.length

theorem length_insert_ge {α β : Type} [DecidableEq α] (m : AMap α β) (k : α) (v : β) :
    m.length ≤ (AMap.insert m k v).length ∧
    (AMap.get m k = none → (AMap.insert m k v).length = m.length + 1) := by
  induction m with
  | nil => simp [AMap.insert]
  | cons p r ih =>
    obtain ⟨k', v'⟩ := p
    unfold AMap.insert
    split
    · rename_i h; subst h; simp
    · rename_i h; simp [h]; exact ih

theorem denseLabels_spec {uf : UF} : ∀ {ids reps acc}, LabelInv uf reps acc →
    ∃ reps', LabelInv uf reps' (denseLabels uf ids reps acc) ∧
      (∀ t, (AMap.get (denseLabels uf ids reps acc) t).isSome ↔
        (AMap.get acc t).isSome ∨ t ∈ ids) := by
  intro ids
  induction ids with
  | nil => intro reps acc hi; exact ⟨reps, hi, by simp [denseLabels]⟩
  | cons t ts ih =>
    intro reps acc hi
    have hr : UF.find uf t ∈ setInsert reps (UF.find uf t) := mem_setInsert.mpr (Or.inl rfl)
    obtain ⟨i, hidx⟩ := indexOf?_isSome hr
    have hstep : LabelInv uf (setInsert reps (UF.find uf t)) (AMap.insert acc t i) := by
      refine ⟨nodup_setInsert hi.nodup, ?_, ?_⟩
      · intro t' j hj
        rw [AMap.get_insert] at hj
        split at hj
        · rename_i h; subst h; simp at hj; subst hj; exact indexOf?_getElem hidx
        · have := hi.at_ t' j hj
          unfold setInsert
          split
          · exact this
          · rw [List.getElem?_append_left]
            · exact this
            · exact (List.getElem?_eq_some_iff.mp this).1
      · unfold setInsert
        split
        · exact Nat.le_trans hi.len (length_insert_ge acc t i).1
        · rename_i hn
          have hnone : AMap.get acc t = none := by
            cases hg : AMap.get acc t with
            | none => rfl
            | some j =>
              exact absurd (List.mem_of_getElem? (hi.at_ t j hg)) (by simpa using hn)
          rw [(length_insert_ge acc t i).2 hnone]
          simp only [List.length_append, List.length_cons, List.length_nil]
          exact Nat.add_le_add_right hi.len 1
    obtain ⟨reps', h1, h2⟩ := ih hstep
    unfold denseLabels
    simp only [hidx]
    refine ⟨reps', h1, ?_⟩
    intro t'
    rw [h2, AMap.get_insert]
    simp only [List.mem_cons]
    split
    · rename_i h; subst h; simp
    · rename_i h
      constructor
      · rintro (h' | h')
        · exact Or.inl h'
        · exact Or.inr (Or.inr h')
      · rintro (h' | h' | h')
        · exact Or.inl h'
        · exact absurd h'.symm h
        · exact Or.inr h'

/-! ### Scanning the allocations -/

/-- `t` is mentioned by an added allocation. -/
def Mentions (A : List TTerm) (t : TempId) : Prop :=
  ∃ x ∈ A, x.op = .add ∧ (x.e = .inr t ∨ x.v = .inr t)

/-- `t` and `t'` assert a common identity in `A`. -/
def Share (s : Schema) (A : List TTerm) (t t' : TempId) : Prop :=
  ∃ a v, IsIdentity s a ∧ (⟨.add, .inr t, a, v⟩ : TTerm) ∈ A ∧ (⟨.add, .inr t', a, v⟩ : TTerm) ∈ A

theorem mem_insertTempId {t u : TempId} {l : List TempId} : u ∈ insertTempId t l ↔ u = t ∨ u ∈ l := by
  induction l with
  | nil => simp [insertTempId]
  | cons x r ih =>
    unfold insertTempId
    split
    · rename_i h; subst h; simp
    · split
      · simp
      · simp only [List.mem_cons, ih]; grind

abbrev AVGroups := AMap (Entid × Sum TypedValue TempId) (List TempId)

def grp (avs : AVGroups) (k : Entid × Sum TypedValue TempId) : List TempId :=
  match AMap.get avs k with
  | some l => l
  | none => []

theorem isUniqueIdentity_ok {s a b} (h : isUniqueIdentity s a = .ok b) : b = true ↔ IsIdentity s a := by
  unfold isUniqueIdentity at h
  unfold IsIdentity
  cases ha : s.attr a with
  | none => simp [ha] at h
  | some at_ => simp [ha] at h; subst h; simp

theorem grp_insert {avs : AVGroups} {k k' : Entid × Sum TypedValue TempId} {l : List TempId} :
    grp (AMap.insert avs k l) k' = if k = k' then l else grp avs k' := by
  unfold grp
  rw [AMap.get_insert]
  by_cases h : k = k'
  · simp [h]
  · simp [h]

structure ScanSpec (s : Schema) (A : List TTerm) (ids0 : List TempId) (avs0 : AVGroups)
    (ids : List TempId) (avs : AVGroups) : Prop where
  ids : ∀ t, t ∈ ids ↔ t ∈ ids0 ∨ Mentions A t
  grps : ∀ k t, t ∈ grp avs k ↔ t ∈ grp avs0 k ∨
    (IsIdentity s k.1 ∧ (⟨.add, .inr t, k.1, k.2⟩ : TTerm) ∈ A)
  wf : AMap.WF avs0 → AMap.WF avs

theorem mentions_cons {x : TTerm} {A t} : Mentions (x :: A) t ↔
    (x.op = .add ∧ (x.e = .inr t ∨ x.v = .inr t)) ∨ Mentions A t := by
  simp only [Mentions, List.mem_cons, exists_eq_or_imp]

theorem scan_spec {s : Schema} {A : List TTerm} : ∀ {ids0 avs0 ids avs},
    allocationsScan s A ids0 avs0 = .ok (ids, avs) → ScanSpec s A ids0 avs0 ids avs := by
  induction A with
  | nil =>
    intro ids0 avs0 ids avs h
    simp only [allocationsScan, Res.ok.injEq, Prod.mk.injEq] at h
    obtain ⟨rfl, rfl⟩ := h
    exact ⟨by simp [Mentions], by simp, fun h => h⟩
  | cons x r ih =>
    obtain ⟨op, e, a, v⟩ := x
    intro ids0 avs0 ids avs h
    unfold allocationsScan at h
    cases op with
    | retract =>
      simp only at h
      obtain ⟨h1, h2, h3⟩ := ih h
      refine ⟨?_, ?_, h3⟩
      · intro t; rw [h1, mentions_cons]; simp
      · intro k t; rw [h2]; simp
    | add =>
      -- the group step, shared by the two tempid-entity cases
      have grpStep : ∀ (t1 : TempId) (u : Bool), isUniqueIdentity s a = .ok u → e = .inr t1 →
          ∀ avs1, ScanSpec s r ids0 (if u then AMap.insert avs0 (a, v)
              ((match AMap.get avs0 (a, v) with | some l => l | none => []) ++ [t1]) else avs0)
            ids avs1 ∨ True →
          ∀ k t, (t ∈ grp (if u then AMap.insert avs0 (a, v)
              ((match AMap.get avs0 (a, v) with | some l => l | none => []) ++ [t1]) else avs0) k ∨
              (IsIdentity s k.1 ∧ (⟨.add, .inr t, k.1, k.2⟩ : TTerm) ∈ r)) ↔
            (t ∈ grp avs0 k ∨ (IsIdentity s k.1 ∧
              (⟨.add, .inr t, k.1, k.2⟩ : TTerm) ∈ (⟨.add, e, a, v⟩ : TTerm) :: r)) := by
        rintro t1 u hu rfl avs1 - ⟨ka, kv⟩ t
        have hid := isUniqueIdentity_ok hu
        simp only [List.mem_cons, Term.mk.injEq, true_and, Sum.inr.injEq]
        cases u with
        | false =>
          have : ¬ IsIdentity s a := fun h => by simpa using hid.mpr h
          simp only [Bool.false_eq_true, if_false]
          grind
        | true =>
          have hid' := hid.mp rfl
          simp only [if_true, grp_insert, Prod.mk.injEq]
          by_cases hk : a = ka ∧ v = kv
          · obtain ⟨rfl, rfl⟩ := hk
            simp only [and_self, if_true, List.mem_append, List.mem_singleton]
            show (t ∈ grp avs0 (a, v) ∨ t = t1) ∨ _ ↔ _
            simp only [and_true, hid', true_and]; grind
          · simp only [if_neg hk]; grind
      cases e with
      | inl e =>
        cases v with
        | inl v => simp at h
        | inr t2 =>
          simp only at h
          obtain ⟨h1, h2, h3⟩ := ih h
          refine ⟨?_, ?_, h3⟩
          · intro t; rw [h1, mentions_cons, mem_insertTempId]
            simp only [true_and, reduceCtorEq, false_or, Sum.inr.injEq]; grind
          · intro k t; rw [h2]; simp
      | inr t1 =>
        cases v with
        | inl v =>
          simp only at h
          cases hu : isUniqueIdentity s a with
          | err _ => simp [hu] at h
          | panic => simp [hu] at h
          | ok u =>
            simp only [hu] at h
            obtain ⟨h1, h2, h3⟩ := ih h
            refine ⟨?_, ?_, ?_⟩
            · intro t; rw [h1, mentions_cons, mem_insertTempId]
              simp only [true_and, reduceCtorEq, or_false, Sum.inr.injEq]; grind
            · intro k t; rw [h2]; exact grpStep t1 u hu rfl avs (Or.inr trivial) k t
            · intro hw; apply h3; split
              · exact AMap.wf_insert hw _ _
              · exact hw
        | inr t2 =>
          simp only at h
          cases hu : isUniqueIdentity s a with
          | err _ => simp [hu] at h
          | panic => simp [hu] at h
          | ok u =>
            simp only [hu] at h
            obtain ⟨h1, h2, h3⟩ := ih h
            refine ⟨?_, ?_, ?_⟩
            · intro t; rw [h1, mentions_cons, mem_insertTempId, mem_insertTempId]
              simp only [true_and, Sum.inr.injEq]; grind
            · intro k t; rw [h2]; exact grpStep t1 u hu rfl avs (Or.inr trivial) k t
            · intro hw; apply h3; split
              · exact AMap.wf_insert hw _ _
              · exact hw

structure LabelSpec (s : Schema) (A : List TTerm) (labels : AMap TempId Nat) : Prop where
  keys : ∀ t, (AMap.get labels t).isSome ↔ Mentions A t
  bound : ∀ t i, AMap.get labels t = some i → i < labels.length
  same : ∀ t i t' i', AMap.get labels t = some i → AMap.get labels t' = some i' →
    (i = i' ↔ Linked (Share s A) t t')

/-- The classes of the union-find are those of tempids linked by shared identities. -/
theorem scan_classes {s : Schema} {A : List TTerm} {ids : List TempId} {avs : AVGroups}
    (h3 : allocationsScan s A [] [] = .ok (ids, avs)) :
    ∀ t ∈ ids, ∀ t' ∈ ids,
      UF.find ((avs.map (·.2)).foldl UF.unionGroup (ids.map fun t => (t, t))) t =
        UF.find ((avs.map (·.2)).foldl UF.unionGroup (ids.map fun t => (t, t))) t' ↔
      Linked (Share s A) t t' := by
  have sc := scan_spec h3
  have hids : ∀ t, t ∈ ids ↔ Mentions A t := by intro t; rw [sc.ids]; simp
  have hwf := sc.wf AMap.wf_nil
  have hgrp : ∀ k l, (k, l) ∈ avs → ∀ t, t ∈ l ↔ IsIdentity s k.1 ∧
      (⟨.add, .inr t, k.1, k.2⟩ : TTerm) ∈ A := by
    intro k l hkl t
    have : grp avs k = l := by
      have := AMap.mem_get hwf hkl
      simp [grp, this]
    rw [← this, sc.grps]; simp [grp]
  have hK : ∀ l ∈ avs.map (·.2), ∀ x ∈ l, x ∈ ids := by
    intro l hl x hx
    obtain ⟨⟨k, l'⟩, hm, rfl⟩ := List.mem_map.mp hl
    obtain ⟨-, hx⟩ := (hgrp k l' hm x).mp hx
    exact (hids x).mpr ⟨_, hx, rfl, Or.inl rfl⟩
  have hu := ufInv_groups (ufInv_init ids) hK
  intro t m1 t' m2
  have hlink : Linked (fun a b => False ∨ ∃ l ∈ avs.map (·.2), GroupRel l a b) t t' ↔
      Linked (Share s A) t t' := by
    constructor
    · intro hh
      refine hh.mono ?_
      rintro x y (hf | ⟨l, hl, hhd, hy⟩)
      · exact hf.elim
      · obtain ⟨⟨k, l'⟩, hm, rfl⟩ := List.mem_map.mp hl
        have hx : x ∈ l' := List.mem_of_mem_head? hhd
        obtain ⟨hid, hx⟩ := (hgrp k l' hm x).mp hx
        obtain ⟨-, hy⟩ := (hgrp k l' hm y).mp hy
        exact .step ⟨k.1, k.2, hid, hx, hy⟩
    · intro hh
      refine hh.mono ?_
      rintro x y ⟨a, v, hid, hx, hy⟩
      have hx' : x ∈ grp avs (a, v) := (sc.grps (a, v) x).mpr (Or.inr ⟨hid, hx⟩)
      have hy' : y ∈ grp avs (a, v) := (sc.grps (a, v) y).mpr (Or.inr ⟨hid, hy⟩)
      cases hg : AMap.get avs (a, v) with
      | none => simp [grp, hg] at hx'
      | some l =>
        simp only [grp, hg] at hx' hy'
        have hml : l ∈ avs.map (·.2) := List.mem_map.mpr ⟨_, AMap.get_some_mem hg, rfl⟩
        cases l with
        | nil => simp at hx'
        | cons hd tl =>
          have l1 : Linked (fun a b => False ∨ ∃ l ∈ avs.map (·.2), GroupRel l a b) hd x :=
            .step (Or.inr ⟨_, hml, rfl, hx'⟩)
          have l2 : Linked (fun a b => False ∨ ∃ l ∈ avs.map (·.2), GroupRel l a b) hd y :=
            .step (Or.inr ⟨_, hml, rfl, hy'⟩)
          exact l1.symm.trans l2
  rw [← hlink, ← hu.classes t m1 t' m2]

theorem tempIdsInAllocations_spec {s : Schema} {g : Generation} {labels : AMap TempId Nat}
    (h : g.tempIdsInAllocations s = .ok labels) :
    g.upsertsE = [] ∧ g.upsertsEV = [] ∧ LabelSpec s g.allocations labels := by
  unfold Generation.tempIdsInAllocations at h
  rw [Res.bind_eq_ok] at h
  obtain ⟨_, h1, h⟩ := h
  rw [Res.bind_eq_ok] at h
  obtain ⟨_, h2, h⟩ := h
  rw [Res.bind_eq_ok] at h
  obtain ⟨⟨ids, avs⟩, h3, h⟩ := h
  simp only [Res.pure_eq, Res.ok.injEq] at h
  simp only [Res.assert_eq_ok] at h1 h2
  refine ⟨h1, h2, ?_⟩
  have sc := scan_spec h3
  have hids : ∀ t, t ∈ ids ↔ Mentions g.allocations t := by intro t; rw [sc.ids]; simp
  have hu := scan_classes h3
  generalize hufd : (avs.map (·.2)).foldl UF.unionGroup (ids.map fun t => (t, t)) = uf at h hu
  have hl0 : LabelInv uf [] [] := ⟨by simp, by simp, by simp⟩
  obtain ⟨reps, hl, hk⟩ := denseLabels_spec (ids := ids) hl0
  rw [h] at hl hk
  refine ⟨?_, ?_, ?_⟩
  · intro t; rw [hk]; simp [hids]
  · intro t i hi
    exact Nat.lt_of_lt_of_le (List.getElem?_eq_some_iff.mp (hl.at_ t i hi)).1 hl.len
  · intro t i t' i' hi hi'
    have a1 := hl.at_ t i hi
    have a2 := hl.at_ t' i' hi'
    have m1 : t ∈ ids := by have := (hk t).mp (by simp [hi]); simpa using this
    have m2 : t' ∈ ids := by have := (hk t').mp (by simp [hi']); simpa using this
    rw [← hu t m1 t' m2]
    constructor
    · rintro rfl
      rw [a1] at a2
      exact Option.some.inj a2
    · intro hf
      rw [hf] at a1
      obtain ⟨b1, e1⟩ := List.getElem?_eq_some_iff.mp a1
      obtain ⟨b2, e2⟩ := List.getElem?_eq_some_iff.mp a2
      exact (List.getElem_inj (h₀ := b1) (h₁ := b2) hl.nodup).mp (e1.trans e2.symm)

/-! ### Final terms and recording the allocations -/

theorem finalTerm_ok {m x y} (h : finalTerm m x = .ok y) : Denotes m x y := by
  obtain ⟨op, e, a, v⟩ := x
  unfold finalTerm at h
  cases e <;> cases v <;> simp only at h
  · simp at h
  · rename_i e t
    cases hg : AMap.get m t with
    | none => simp only [hg] at h; cases op <;> simp at h
    | some n => simp only [hg, Res.ok.injEq] at h; subst h; exact ⟨rfl, rfl, rfl, n, hg, rfl⟩
  · rename_i t v
    cases hg : AMap.get m t with
    | none => simp only [hg] at h; cases op <;> simp at h
    | some n => simp only [hg, Res.ok.injEq] at h; subst h; exact ⟨rfl, rfl, hg, rfl⟩
  · rename_i t1 t2
    cases hg : AMap.get m t1 with
    | none => simp only [hg] at h; cases op <;> simp at h
    | some n =>
      cases hg2 : AMap.get m t2 with
      | none => simp only [hg, hg2] at h; cases op <;> simp at h
      | some n2 =>
        simp only [hg, hg2, Res.ok.injEq] at h; subst h; exact ⟨rfl, rfl, hg, n2, hg2, rfl⟩

theorem finalTerms_ok {m : TempIdMap} {xs : List TTerm} : ∀ {ys}, finalTerms m xs = .ok ys →
    (∀ x ∈ xs, ∃ y ∈ ys, Denotes m x y) ∧ (∀ y ∈ ys, ∃ x ∈ xs, Denotes m x y) := by
  induction xs with
  | nil => intro ys h; simp [finalTerms] at h; subst h; simp
  | cons x r ih =>
    intro ys h
    unfold finalTerms at h
    cases hx : finalTerm m x with
    | err e => rw [hx] at h; simp at h
    | panic => rw [hx] at h; simp at h
    | ok y =>
      rw [hx] at h
      simp only at h
      cases hr : finalTerms m r with
      | err e => rw [hr] at h; simp at h
      | panic => rw [hr] at h; simp at h
      | ok zs =>
        rw [hr] at h
        simp only [Res.ok.injEq] at h
        subst h
        obtain ⟨h1, h2⟩ := ih hr
        have hd := finalTerm_ok hx
        refine ⟨?_, ?_⟩
        · intro x' hx'
          simp only [List.mem_cons] at hx'
          rcases hx' with rfl | hx'
          · exact ⟨y, by simp, hd⟩
          · obtain ⟨y', hy', hd'⟩ := h1 x' hx'
            exact ⟨y', by simp [hy'], hd'⟩
        · intro y' hy'
          simp only [List.mem_cons] at hy'
          rcases hy' with rfl | hy'
          · exact ⟨x, by simp, hd⟩
          · obtain ⟨x', hx', hd'⟩ := h2 y' hy'
            exact ⟨x', by simp [hx'], hd'⟩

theorem recordAllocated_ok {al : TempIdMap} : ∀ {T M}, recordAllocated al T = .ok M →
    AMap.Sub T M ∧ (∀ p ∈ al, AMap.get M p.1 = some p.2) ∧
    (∀ t n, AMap.get M t = some n → AMap.get T t = some n ∨ (t, n) ∈ al) ∧
    (∀ p ∈ al, AMap.get T p.1 = none) := by
  induction al with
  | nil =>
    intro T M h
    simp only [recordAllocated, Res.ok.injEq] at h
    subst h
    exact ⟨AMap.Sub.refl _, by simp, fun t n h => Or.inl h, by simp⟩
  | cons x r ih =>
    obtain ⟨t, n⟩ := x
    intro T M h
    unfold recordAllocated at h
    split at h
    · simp at h
    · rename_i hc
      have hn : AMap.get T t = none := by
        cases hg : AMap.get T t with
        | none => rfl
        | some k => simp [AMap.contains, hg] at hc
      obtain ⟨h1, h2, h3, h4⟩ := ih h
      refine ⟨?_, ?_, ?_, ?_⟩
      · intro k v hk
        have : t ≠ k := by rintro rfl; rw [hn] at hk; simp at hk
        exact h1 _ _ (by rw [AMap.get_insert_ne _ _ this]; exact hk)
      · intro p hp
        simp only [List.mem_cons] at hp
        rcases hp with rfl | hp
        · exact h1 _ _ (by simp)
        · exact h2 p hp
      · intro t' n' hg
        rcases h3 t' n' hg with h | h
        · rw [AMap.get_insert] at h
          split at h
          · rename_i ht; subst ht; simp at h; subst h; exact Or.inr (by simp)
          · exact Or.inl h
        · exact Or.inr (List.mem_cons_of_mem _ h)
      · intro p hp
        simp only [List.mem_cons] at hp
        rcases hp with rfl | hp
        · exact hn
        · have := h4 p hp
          rw [AMap.get_insert] at this
          split at this
          · simp at this
          · exact this

end Mentat
