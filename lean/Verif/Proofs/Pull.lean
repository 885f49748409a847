import Verif.Spec.Pull
import Verif.Proofs.Cache
/- What the caches filled for a pull hold, and what the loops of `pull` collect from them. -/
namespace Mentat

/-! ### Sorting -/

theorem insertSortedBy_perm {α : Type} (key : α → Int) (x : α) (l : List α) :
    (insertSortedBy key x l).Perm (x :: l) := by
  induction l with
  | nil => exact List.Perm.refl _
  | cons y r ih =>
    unfold insertSortedBy
    split
    · exact List.Perm.refl _
    · exact (List.Perm.cons y ih).trans (List.Perm.swap x y r)

theorem sortBy_perm {α : Type} (key : α → Int) (l : List α) : (sortBy key l).Perm l := by
  induction l with
  | nil => exact List.Perm.refl _
  | cons x r ih => exact (insertSortedBy_perm key x _).trans (List.Perm.cons x ih)

/-! ### Accumulating values -/

theorem set_some {evs : List (Entid × TypedValue)} : ∀ {m : SingleVals} {e : Entid} {o : Option TypedValue},
    AMap.get (evs.foldl SingleVals.set m) e = some o →
    AMap.get m e = some o ∨ ∃ v, o = some v ∧ (e, v) ∈ evs := by
  induction evs with
  | nil => intro m e o h; exact .inl h
  | cons x r ih =>
    intro m e o h
    rcases ih h with h | ⟨v, h1, h2⟩
    · unfold SingleVals.set at h
      rw [AMap.get_insert] at h
      split at h
      · rename_i hx
        cases h
        exact .inr ⟨x.2, rfl, by rw [← hx]; exact List.mem_cons_self⟩
      · exact .inl h
    · exact .inr ⟨v, h1, List.mem_cons_of_mem _ h2⟩

theorem set_keeps {evs : List (Entid × TypedValue)} : ∀ {m : SingleVals} {e : Entid},
    (∃ v, AMap.get m e = some (some v)) ∨ (∃ v, (e, v) ∈ evs) →
    ∃ v, AMap.get (evs.foldl SingleVals.set m) e = some (some v) := by
  induction evs with
  | nil =>
    intro m e h
    rcases h with h | ⟨v, h⟩
    · exact h
    · exact absurd h (by simp)
  | cons x r ih =>
    intro m e h
    rw [List.foldl_cons]
    apply ih
    by_cases hx : x.1 = e
    · exact .inl ⟨x.2, by unfold SingleVals.set; rw [← hx, AMap.get_insert_self]⟩
    · rcases h with ⟨v, h⟩ | ⟨v, h⟩
      · exact .inl ⟨v, by unfold SingleVals.set; rw [AMap.get_insert_ne _ _ hx]; exact h⟩
      · rcases List.mem_cons.mp h with h | h
        · exact absurd (by rw [← h]) hx
        · exact .inr ⟨v, h⟩

theorem get_acc {evs : List (Entid × TypedValue)} : ∀ {m : MultiVals} {e : Entid},
    AMap.get (evs.foldl MultiVals.acc m) e =
      if (evs.filter fun p => decide (p.1 = e)) = [] then AMap.get m e
      else some ((AMap.get m e).getD [] ++ (evs.filter fun p => decide (p.1 = e)).map (·.2)) := by
  induction evs with
  | nil => intro m e; simp
  | cons x r ih =>
    intro m e
    rw [List.foldl_cons, ih]
    by_cases hx : x.1 = e
    · subst hx
      unfold MultiVals.acc
      rw [AMap.get_insert_self]
      simp only [List.filter_cons, decide_true, if_true, Option.getD_some, List.map_cons]
      split
      · rename_i h0
        simp [h0]
      · simp
    · unfold MultiVals.acc
      rw [AMap.get_insert_ne _ _ hx]
      simp only [List.filter_cons, hx, decide_false, Bool.false_eq_true, if_false]

/-! ### The caches of a pull -/

theorem mem_evsOf {rows : List Row} {A es : List Entid} {a e : Entid} {v : TypedValue} :
    (e, v) ∈ evsOf (pullRows rows A es) a ↔ e ∈ es ∧ a ∈ A ∧ Has rows e a v := by
  unfold evsOf pullRows Has
  simp only [List.mem_map, List.mem_filter, mem_sortBy, Prod.exists, decide_eq_true_eq,
    Bool.and_eq_true]
  constructor
  · rintro ⟨a', e', v', ⟨⟨r, ⟨hr, h1, h2⟩, h3⟩, rfl⟩, h4⟩
    cases h3
    cases h4
    exact ⟨h1, h2, r, hr, rfl, rfl, rfl⟩
  · rintro ⟨h1, h2, r, hr, rfl, rfl, rfl⟩
    exact ⟨r.a, r.e, r.v, ⟨⟨r, ⟨hr, h1, h2⟩, rfl⟩, rfl⟩, rfl⟩

theorem evsOf_nodup {rows : List Row} (hu : uniqueOk rows = true) (A es : List Entid) (a : Entid) :
    (evsOf (pullRows rows A es) a).Nodup := by
  have h1 : (pullRows rows A es).Nodup := by
    unfold pullRows
    rw [((sortBy_perm _ _).trans (sortBy_perm _ _)).nodup_iff]
    unfold List.Nodup
    rw [List.pairwise_map]
    refine List.Pairwise.filter _ ((uniqueOk_iff.mp hu).imp ?_)
    intro r r' h heq
    simp only [Prod.mk.injEq] at heq
    exact h.1 ⟨heq.2.1.symm, heq.1.symm, heq.2.2.symm⟩
  unfold evsOf List.Nodup
  rw [List.pairwise_map]
  refine (List.Pairwise.filter _ h1).imp_of_mem ?_
  intro x y hx hy hne heq
  rw [List.mem_filter, decide_eq_true_eq] at hx hy
  exact hne (Prod.ext (hx.2.trans hy.2.symm) heq)

theorem accumulateRuns_total {s : Schema} {b : Behavior} : ∀ {rs : List (Entid × List (Entid × TypedValue))}
    {c : Caches}, (∀ r ∈ rs, (s.attr r.1).isSome ∧ r.1 ∈ c.forward) →
    ∃ c', Caches.accumulateRuns none s b rs c = .ok c' := by
  intro rs
  induction rs with
  | nil => intro c _; exact ⟨c, rfl⟩
  | cons r rs ih =>
    intro c h
    rw [Caches.accumulateRuns]
    obtain ⟨h1, h2⟩ := h r List.mem_cons_self
    obtain ⟨at_, hat⟩ := Option.isSome_iff_exists.mp h1
    cases hr : c.accumulateRun none s b r with
    | ok c1 =>
      obtain ⟨hf, -, -⟩ := laws_single.run hr
      exact ih fun x hx => by rw [hf]; exact h x (List.mem_cons_of_mem _ hx)
    | err e => simp [Caches.accumulateRun, hat, h2] at hr
    | panic => simp [Caches.accumulateRun, hat, h2] at hr

theorem runs_attr {rows : List Aev} {r : Entid × List (Entid × TypedValue)} (h : r ∈ runs rows) :
    ∃ x ∈ rows, x.1 = r.1 := by
  induction rows generalizing r with
  | nil => simp [runs] at h
  | cons x rows ih =>
    obtain ⟨a, ev⟩ := x
    rw [runs] at h
    cases hr : runs rows with
    | nil =>
      rw [hr] at h
      simp only [List.mem_singleton] at h
      exact ⟨_, List.mem_cons_self, by rw [h]⟩
    | cons y rest =>
      obtain ⟨a', evs⟩ := y
      rw [hr] at h ih
      simp only at h
      split at h
      · rcases List.mem_cons.mp h with h | h
        · exact ⟨_, List.mem_cons_self, by rw [h]⟩
        · obtain ⟨z, hz, h⟩ := ih (List.mem_cons_of_mem _ h)
          exact ⟨z, List.mem_cons_of_mem _ hz, h⟩
      · rcases List.mem_cons.mp h with h | h
        · exact ⟨_, List.mem_cons_self, by rw [h]⟩
        · obtain ⟨z, hz, h⟩ := ih h
          exact ⟨z, List.mem_cons_of_mem _ hz, h⟩

theorem pullCaches_total (s : Schema) (rows : List Row) (A es : List Entid) :
    ∃ c, pullCaches s rows A es = .ok c := by
  unfold pullCaches
  split
  · exact ⟨_, rfl⟩
  · apply accumulateRuns_total
    intro r hr
    obtain ⟨x, hx, h⟩ := runs_attr hr
    have h2 : r.1 ∈ pullAttrs s A := by
      unfold pullRows at hx
      simp only [mem_sortBy, List.mem_map, List.mem_filter, Bool.and_eq_true, decide_eq_true_eq] at hx
      obtain ⟨q, ⟨-, -, hq⟩, rfl⟩ := hx
      rw [← h]; exact hq
    exact ⟨(List.mem_filter.mp h2).2, h2⟩

theorem pullCaches_forward {s : Schema} {rows : List Row} {A es : List Entid} {c : Caches}
    (h : pullCaches s rows A es = .ok c) : c.forward = pullAttrs s A := by
  unfold pullCaches at h
  split at h
  · rename_i h0
    cases h
    simpa using (List.isEmpty_iff.mp h0).symm
  · exact (accumulateRuns_lists h).1

theorem pullCaches_eff {K V : Type} [DecidableEq K] {S : Slot K V} (L : S.Laws)
    {s : Schema} {rows : List Row} {A es : List Entid} {c : Caches}
    (hS : ∀ c, S.cached c = c.forward)
    (h : pullCaches s rows A es = .ok c) {a : Entid} {at_ : Attribute} (hat : s.attr a = some at_)
    (hon : S.on at_ = true) (ha : a ∈ A) :
    (AMap.get (S.field c) a).getD [] = (evsOf (pullRows rows (pullAttrs s A) es) a).foldl S.add [] := by
  have ha' : a ∈ pullAttrs s A := List.mem_filter.mpr ⟨ha, by rw [hat]; rfl⟩
  unfold pullCaches at h
  rw [if_neg (by intro h0; rw [List.isEmpty_iff.mp h0] at ha'; simp at ha')] at h
  have := accumulate_eff L h rfl hat hon (by rw [hS]; exact ha')
  unfold Slot.eff at this
  rw [show S.field { forward := pullAttrs s A } = [] from L.empty _ _] at this
  simp only [Option.filter_none, Option.bind_none, Option.getD_none, AMap.get_nil] at this
  cases hg : AMap.get (S.field c) a with
  | none => rw [hg] at this; exact this
  | some x => rw [hg] at this; exact this

theorem getD_bind {K V : Type} [DecidableEq K] (o : Option (AMap K V)) (k : K) :
    (o.bind fun m => AMap.get m k) = AMap.get (o.getD []) k := by
  cases o <;> rfl

theorem pullCaches_single {s : Schema} {rows : List Row} {A es : List Entid} {c : Caches}
    (h : pullCaches s rows A es = .ok c) {a : Entid} {at_ : Attribute} (hat : s.attr a = some at_)
    (hm : at_.multival = false) (ha : a ∈ A) :
    (AMap.get c.single a).getD [] =
      (evsOf (pullRows rows (pullAttrs s A) es) a).foldl SingleVals.set [] :=
  pullCaches_eff laws_single (fun _ => rfl) h hat (by simp [sSingle, hm]) ha

theorem pullCaches_multi {s : Schema} {rows : List Row} {A es : List Entid} {c : Caches}
    (h : pullCaches s rows A es = .ok c) {a : Entid} {at_ : Attribute} (hat : s.attr a = some at_)
    (hm : at_.multival = true) (ha : a ∈ A) :
    (AMap.get c.multi a).getD [] =
      (evsOf (pullRows rows (pullAttrs s A) es) a).foldl MultiVals.acc [] :=
  pullCaches_eff laws_multi (fun _ => rfl) h hat hm ha

/-- What `pull` looks up for an attribute is what the store holds. -/
theorem bindingFor_holds {s : Schema} {rows : List Row} (hu : uniqueOk rows = true) {A es : List Entid}
    {c : Caches} (h : pullCaches s rows A es = .ok c) {a e : Entid} (he : e ∈ es) {b : PullVal}
    (hb : c.bindingFor s a e = some b) : Holds s rows e a b := by
  unfold Caches.bindingFor at hb
  split at hb
  · rename_i hf
    rw [pullCaches_forward h] at hf
    have ha : a ∈ A := (List.mem_filter.mp hf).1
    cases hat : s.attr a with
    | none => rw [hat] at hb; cases hb
    | some at_ =>
      rw [hat] at hb
      simp only at hb
      split at hb
      · rename_i hm
        rw [getD_bind, pullCaches_multi h hat hm ha, Option.map_eq_some_iff] at hb
        obtain ⟨vs, hg, rfl⟩ := hb
        rw [get_acc] at hg
        split at hg
        · simp at hg
        · rename_i hne
          simp only [AMap.get_nil, Option.getD_none, List.nil_append, Option.some.injEq] at hg
          refine .many hat hm ?_ ?_ ?_
          · rw [← hg]; simpa using hne
          · rw [← hg]
            unfold List.Nodup
            rw [List.pairwise_map]
            refine (List.Pairwise.filter _ (evsOf_nodup hu _ _ _)).imp_of_mem ?_
            intro x y hx hy hxy heq
            rw [List.mem_filter, decide_eq_true_eq] at hx hy
            exact hxy (Prod.ext (hx.2.trans hy.2.symm) heq)
          · intro v
            rw [← hg, List.mem_map]
            constructor
            · rintro ⟨⟨e', v'⟩, hx, rfl⟩
              rw [List.mem_filter, decide_eq_true_eq] at hx
              obtain ⟨hx, rfl⟩ := hx
              exact (mem_evsOf.mp hx).2.2
            · intro hv
              exact ⟨(e, v), List.mem_filter.mpr ⟨mem_evsOf.mpr ⟨he, hf, hv⟩, by simp⟩, rfl⟩
      · rename_i hm
        have hm : at_.multival = false := by simpa using hm
        rw [getD_bind, pullCaches_single h hat hm ha,
          Option.map_eq_some_iff] at hb
        obtain ⟨v, hg, rfl⟩ := hb
        rw [Option.join_eq_some_iff] at hg
        rcases set_some hg with hg | ⟨v', h1, h2⟩
        · simp at hg
        · cases h1
          exact .one hat hm (mem_evsOf.mp h2).2.2
  · cases hb

theorem bindingFor_some {s : Schema} {rows : List Row} {A es : List Entid}
    {c : Caches} (h : pullCaches s rows A es = .ok c) {a e : Entid} (he : e ∈ es) (ha : a ∈ A)
    {b : PullVal} (hb : Holds s rows e a b) : ∃ b', c.bindingFor s a e = some b' := by
  unfold Caches.bindingFor
  rw [pullCaches_forward h]
  cases hb with
  | @one at_ v hat hm hv =>
    have hf : a ∈ pullAttrs s A := List.mem_filter.mpr ⟨ha, by rw [hat]; rfl⟩
    rw [if_pos hf, hat]
    simp only [hm, Bool.false_eq_true, if_false]
    rw [getD_bind, pullCaches_single h hat hm ha]
    obtain ⟨v', hv'⟩ := set_keeps (evs := evsOf (pullRows rows (pullAttrs s A) es) a) (m := [])
      (.inr ⟨v, mem_evsOf.mpr ⟨he, hf, hv⟩⟩)
    exact ⟨.scalar v', by rw [hv']; rfl⟩
  | @many at_ vs hat hm hne _ hv =>
    have hf : a ∈ pullAttrs s A := List.mem_filter.mpr ⟨ha, by rw [hat]; rfl⟩
    rw [if_pos hf, hat]
    simp only [hm, if_true]
    rw [getD_bind, pullCaches_multi h hat hm ha]
    obtain ⟨v, hx⟩ := List.exists_mem_of_ne_nil vs hne
    rw [get_acc]
    rw [if_neg]
    · exact ⟨_, rfl⟩
    · intro h0
      have : (e, v) ∈ (evsOf (pullRows rows (pullAttrs s A) es) a).filter fun p => decide (p.1 = e) :=
        List.mem_filter.mpr ⟨mem_evsOf.mpr ⟨he, hf, (hv v).mp hx⟩, by simp⟩
      rw [h0] at this
      simp at this

/-- Values the store holds for one attribute of one entity differ only in order. -/
theorem Holds.same {s : Schema} {rows : List Row} {e a : Entid} {b b' : PullVal}
    (hone : ∀ at_ v v', s.attr a = some at_ → at_.multival = false → Has rows e a v → Has rows e a v' → v = v')
    (h : Holds s rows e a b) (h' : Holds s rows e a b') : b.Same b' := by
  cases h with
  | one hat hm hv =>
    cases h' with
    | one hat' hm' hv' => rw [hone _ _ _ hat hm hv hv']; exact .scalar _
    | many hat' hm' => rw [hat] at hat'; cases hat'; rw [hm] at hm'; cases hm'
  | many hat hm hne hn hv =>
    cases h' with
    | one hat' hm' hv' => rw [hat] at hat'; cases hat'; rw [hm] at hm'; cases hm'
    | many hat' hm' hne' hn' hv' =>
      exact .vec ((List.perm_ext_iff_of_nodup hn hn').mpr fun v => (hv v).trans (hv' v).symm)

/-- and what differs only in order is held as well. -/
theorem Holds.of_same {s : Schema} {rows : List Row} {e a : Entid} {b b' : PullVal}
    (h : Holds s rows e a b') (hs : b.Same b') : Holds s rows e a b := by
  cases hs with
  | scalar v => exact h
  | vec hp =>
    cases h with
    | many hat hm hne hn hv =>
      exact .many hat hm (fun h0 => hne (by rw [h0] at hp; exact hp.nil_eq.symm)) (hp.nodup_iff.mpr hn)
        fun v => (hp.mem_iff).trans (hv v)

/-! ### Collecting -/

theorem at_putPull (m : PullResults) (e e' : Entid) (n n' : Keyword) (b : PullVal) :
    (putPull m e n b).at e' n' = if e = e' ∧ n = n' then some b else m.at e' n' := by
  unfold putPull PullResults.at
  rw [AMap.get_insert]
  by_cases he : e = e'
  · subst he
    simp only [if_true, Option.bind_some, true_and]
    rw [AMap.get_insert]
    split
    · rfl
    · cases AMap.get m e <;> rfl
  · simp [he]

/-- No entity has an empty map. -/
def NoEmpty (m : PullResults) : Prop := ∀ e x, AMap.get m e = some x → ∃ n b, AMap.get x n = some b

theorem noEmpty_put {m : PullResults} (h : NoEmpty m) (e : Entid) (n : Keyword) (b : PullVal) :
    NoEmpty (putPull m e n b) := by
  intro e' x hx
  unfold putPull at hx
  rw [AMap.get_insert] at hx
  split at hx
  · cases hx
    exact ⟨n, b, AMap.get_insert_self _ _ _⟩
  · exact h e' x hx

/-- `m'` is `m` with some of `P` put into it, and at least one where there is one. -/
structure Puts (P : Entid → Keyword → PullVal → Prop) (m m' : PullResults) : Prop where
  sound : ∀ e n b, m'.at e n = some b → m.at e n = some b ∨ P e n b
  full : ∀ e n b, P e n b ∨ m.at e n = some b → ∃ b', m'.at e n = some b'
  noEmpty : NoEmpty m → NoEmpty m'
  wf : AMap.WF m → AMap.WF m'

theorem Puts.refl (m : PullResults) : Puts (fun _ _ _ => False) m m :=
  ⟨fun _ _ _ h => .inl h, fun _ _ b h => ⟨b, h.resolve_left id⟩, id, id⟩

theorem Puts.trans {P Q : Entid → Keyword → PullVal → Prop} {m m' m'' : PullResults}
    (h : Puts P m m') (h' : Puts Q m' m'') : Puts (fun e n b => P e n b ∨ Q e n b) m m'' where
  sound e n b hb := by
    rcases h'.sound e n b hb with hb | hb
    · rcases h.sound e n b hb with hb | hb
      · exact .inl hb
      · exact .inr (.inl hb)
    · exact .inr (.inr hb)
  full e n b hb := by
    rcases hb with (hb | hb) | hb
    · obtain ⟨b', hb⟩ := h.full e n b (.inl hb)
      exact h'.full e n b' (.inr hb)
    · exact h'.full e n b (.inl hb)
    · obtain ⟨b', hb⟩ := h.full e n b (.inr hb)
      exact h'.full e n b' (.inr hb)
  noEmpty hm := h'.noEmpty (h.noEmpty hm)
  wf hm := h'.wf (h.wf hm)

theorem Puts.congr {P Q : Entid → Keyword → PullVal → Prop} {m m' : PullResults} (h : Puts P m m')
    (hpq : ∀ e n b, P e n b ↔ Q e n b) : Puts Q m m' :=
  ⟨fun e n b hb => (h.sound e n b hb).imp id (hpq e n b).mp,
    fun e n b hb => h.full e n b (hb.imp (hpq e n b).mpr id), h.noEmpty, h.wf⟩

theorem puts_one (m : PullResults) (e : Entid) (n : Keyword) (b : PullVal) :
    Puts (fun e' n' b' => e' = e ∧ n' = n ∧ b' = b) m (putPull m e n b) where
  sound e' n' b' hb := by
    rw [at_putPull] at hb
    split at hb
    · rename_i h
      cases hb
      exact .inr ⟨h.1.symm, h.2.symm, rfl⟩
    · exact .inl hb
  full e' n' b' hb := by
    rw [at_putPull]
    split
    · exact ⟨_, rfl⟩
    · rename_i h
      rcases hb with ⟨h1, h2, -⟩ | hb
      · exact absurd ⟨h1.symm, h2.symm⟩ h
      · exact ⟨_, hb⟩
  noEmpty hm := noEmpty_put hm e n b
  wf hm := AMap.wf_insert hm _ _

theorem puts_ids (n : Keyword) : ∀ (es : List Entid) (m : PullResults),
    Puts (fun e' n' b' => e' ∈ es ∧ n' = n ∧ b' = .scalar (.ref e')) m (pullIds n es m) := by
  intro es
  induction es with
  | nil => intro m; exact (Puts.refl m).congr (by simp)
  | cons e r ih =>
    intro m
    refine ((puts_one m e n _).trans (ih _)).congr ?_
    intro e' n' b'
    constructor
    · rintro (⟨rfl, rfl, rfl⟩ | ⟨h1, rfl, rfl⟩)
      · exact ⟨List.mem_cons_self, rfl, rfl⟩
      · exact ⟨List.mem_cons_of_mem _ h1, rfl, rfl⟩
    · rintro ⟨h1, rfl, rfl⟩
      rcases List.mem_cons.mp h1 with rfl | h1
      · exact .inl ⟨rfl, rfl, rfl⟩
      · exact .inr ⟨h1, rfl, rfl⟩

theorem puts_attr (n : Keyword) (look : Entid → Option PullVal) : ∀ (es : List Entid) (m : PullResults),
    Puts (fun e' n' b' => e' ∈ es ∧ n' = n ∧ look e' = some b') m (pullOne n look es m) := by
  intro es
  induction es with
  | nil => intro m; exact (Puts.refl m).congr (by simp)
  | cons e r ih =>
    intro m
    rw [pullOne]
    cases hl : look e with
    | none =>
      refine (ih m).congr ?_
      intro e' n' b'
      constructor
      · rintro ⟨h1, h2⟩; exact ⟨List.mem_cons_of_mem _ h1, h2⟩
      · rintro ⟨h1, h2, h3⟩
        rcases List.mem_cons.mp h1 with rfl | h1
        · rw [hl] at h3; cases h3
        · exact ⟨h1, h2, h3⟩
    | some b =>
      refine ((puts_one m e n b).trans (ih _)).congr ?_
      intro e' n' b'
      constructor
      · rintro (⟨rfl, rfl, rfl⟩ | ⟨h1, h2⟩)
        · exact ⟨List.mem_cons_self, rfl, hl⟩
        · exact ⟨List.mem_cons_of_mem _ h1, h2⟩
      · rintro ⟨h1, rfl, h3⟩
        rcases List.mem_cons.mp h1 with rfl | h1
        · rw [hl] at h3; cases h3; exact .inl ⟨rfl, rfl, rfl⟩
        · exact .inr ⟨h1, rfl, h3⟩

theorem puts_all (look : Entid → Entid → Option PullVal) (es : List Entid) :
    ∀ (names : List (Entid × Keyword)) (m : PullResults),
    Puts (fun e' n' b' => e' ∈ es ∧ ∃ a, (a, n') ∈ names ∧ look a e' = some b') m (pullAll look es names m) := by
  intro names
  induction names with
  | nil => intro m; exact (Puts.refl m).congr (by simp)
  | cons x r ih =>
    obtain ⟨a, n⟩ := x
    intro m
    refine ((puts_attr n (look a) es m).trans (ih _)).congr ?_
    intro e' n' b'
    constructor
    · rintro (⟨h1, rfl, h3⟩ | ⟨h1, a', h2, h3⟩)
      · exact ⟨h1, a, List.mem_cons_self, h3⟩
      · exact ⟨h1, a', List.mem_cons_of_mem _ h2, h3⟩
    · rintro ⟨h1, a', h2, h3⟩
      rcases List.mem_cons.mp h2 with h2 | h2
      · cases h2; exact .inl ⟨h1, rfl, h3⟩
      · exact .inr ⟨h1, a', h2, h3⟩

/-- What `pull` puts into its results. -/
def PullPuts (c : Caches) (s : Schema) (p : Puller) (es : List Entid) (e : Entid) (n : Keyword) (b : PullVal) :
    Prop :=
  e ∈ es ∧ ((p.dbIdAlias = some n ∧ b = .scalar (.ref e)) ∨
    ∃ a, (a, n) ∈ p.names ∧ c.bindingFor s a e = some b)

theorem pull_puts {p : Puller} {s : Schema} {rows : List Row} {es : List Entid} :
    ∃ c res, pullCaches s rows p.attrs es = .ok c ∧ p.pull s rows es = .ok res ∧
      Puts (PullPuts c s p es) [] res := by
  obtain ⟨c, hc⟩ := pullCaches_total s rows p.attrs es
  refine ⟨c, _, hc, by unfold Puller.pull; rw [hc]; rfl, ?_⟩
  refine Puts.congr (Puts.trans (P := fun e n b => e ∈ es ∧ p.dbIdAlias = some n ∧ b = .scalar (.ref e))
    ?_ (puts_all _ _ _ _)) ?_
  · cases hd : p.dbIdAlias with
    | none => exact (Puts.refl _).congr (by simp)
    | some n =>
      refine (puts_ids n es []).congr ?_
      intro e n' b
      constructor
      · rintro ⟨h1, rfl, h3⟩; exact ⟨h1, rfl, h3⟩
      · rintro ⟨h1, h2, h3⟩; exact ⟨h1, (Option.some.inj h2).symm, h3⟩
  · intro e n b
    simp only [mem_sortBy]
    constructor
    · rintro (⟨h1, h2, h3⟩ | ⟨h1, a, h2, h3⟩)
      · exact ⟨h1, .inl ⟨h2, h3⟩⟩
      · exact ⟨h1, .inr ⟨a, h2, h3⟩⟩
    · rintro ⟨h1, ⟨h2, h3⟩ | ⟨a, h2, h3⟩⟩
      · exact .inl ⟨h1, h2, h3⟩
      · exact .inr ⟨h1, a, h2, h3⟩

/-! ### Preparing -/

theorem mem_setInsert_iff {l : List Entid} {x y : Entid} : y ∈ setInsert l x ↔ y ∈ l ∨ y = x := by
  unfold setInsert
  split
  · constructor
    · exact .inl
    · rintro (h | rfl) <;> assumption
  · simp

structure Prepared (p : Puller) (Q : Entid → Keyword → Prop) (I : Keyword → Prop) (p' : Puller) : Prop where
  names : ∀ a n, AMap.get p'.names a = some n → AMap.get p.names a = some n ∨ Q a n
  full : ∀ a n, Q a n ∨ AMap.get p.names a = some n → ∃ n', AMap.get p'.names a = some n'
  attrs : ∀ a, a ∈ p'.attrs ↔ a ∈ p.attrs ∨ ∃ n, Q a n
  wf : AMap.WF p.names → AMap.WF p'.names
  id : ∀ n, p'.dbIdAlias = some n ↔ p.dbIdAlias = some n ∨ I n

theorem Prepared.refl (p : Puller) : Prepared p (fun _ _ => False) (fun _ => False) p :=
  ⟨fun _ _ h => .inl h, fun _ n h => ⟨n, h.resolve_left fun x => x⟩, fun _ => by simp, fun x => x,
    fun _ => by simp⟩

theorem Prepared.trans {p p' p'' : Puller} {Q Q' : Entid → Keyword → Prop} {I I' : Keyword → Prop}
    (h : Prepared p Q I p') (h' : Prepared p' Q' I' p'') :
    Prepared p (fun a n => Q a n ∨ Q' a n) (fun n => I n ∨ I' n) p'' where
  names a n hn := by
    rcases h'.names a n hn with hn | hn
    · rcases h.names a n hn with hn | hn
      · exact .inl hn
      · exact .inr (.inl hn)
    · exact .inr (.inr hn)
  full a n hn := by
    rcases hn with (hn | hn) | hn
    · obtain ⟨n', hn⟩ := h.full a n (.inl hn)
      exact h'.full a n' (.inr hn)
    · exact h'.full a n (.inl hn)
    · obtain ⟨n', hn⟩ := h.full a n (.inr hn)
      exact h'.full a n' (.inr hn)
  attrs a := by
    rw [h'.attrs, h.attrs]
    constructor
    · rintro ((hh | ⟨n, hh⟩) | ⟨n, hh⟩)
      · exact .inl hh
      · exact .inr ⟨n, .inl hh⟩
      · exact .inr ⟨n, .inr hh⟩
    · rintro (hh | ⟨n, hh | hh⟩)
      · exact .inl (.inl hh)
      · exact .inl (.inr ⟨n, hh⟩)
      · exact .inr ⟨n, hh⟩
  wf hm := h'.wf (h.wf hm)
  id n := by rw [h'.id, h.id, or_assoc]

theorem Prepared.congr {p p' : Puller} {Q Q' : Entid → Keyword → Prop} {I I' : Keyword → Prop}
    (h : Prepared p Q I p') (hq : ∀ a n, Q a n ↔ Q' a n) (hi : ∀ n, I n ↔ I' n) : Prepared p Q' I' p' where
  names a n hn := (h.names a n hn).imp _root_.id (hq a n).mp
  full a n hn := h.full a n (hn.imp (hq a n).mpr _root_.id)
  attrs a := by rw [h.attrs]; simp only [hq]
  wf := h.wf
  id n := by rw [h.id, hi]

theorem prepared_want (p : Puller) (a : Entid) (n : Keyword) :
    Prepared p (fun a' n' => a' = a ∧ n' = n) (fun _ => False) (p.want a n) where
  names a' n' h := by
    unfold Puller.want at h
    rw [AMap.get_insert] at h
    split at h
    · rename_i ha
      cases h
      exact .inr ⟨ha.symm, rfl⟩
    · exact .inl h
  full a' n' h := by
    unfold Puller.want
    simp only
    rw [AMap.get_insert]
    split
    · exact ⟨_, rfl⟩
    · rename_i ha
      exact ⟨n', h.resolve_left fun hh => ha hh.1.symm⟩
  attrs a' := by
    unfold Puller.want
    simp only
    rw [mem_setInsert_iff]
    simp
  wf h := AMap.wf_insert h _ _
  id n' := by simp [Puller.want]

theorem prepared_all (s : Schema) : ∀ {l : List Entid} {p p' : Puller}, Puller.wantAll s l p = .ok p' →
    Prepared p (fun a n => a ∈ l ∧ AMap.get s.entidMap a = some n) (fun _ => False) p' := by
  intro l
  induction l with
  | nil =>
    intro p p' h
    cases h
    exact (Prepared.refl _).congr (by simp) (by simp)
  | cons a r ih =>
    intro p p' h
    rw [Puller.wantAll] at h
    unfold pullName at h
    cases hn : AMap.get s.entidMap a with
    | none => rw [hn] at h; simp [Res.bind] at h
    | some n =>
      rw [hn] at h
      refine ((prepared_want p a n).trans (ih h)).congr ?_ (by simp)
      intro a' n'
      constructor
      · rintro (⟨rfl, rfl⟩ | ⟨h1, h2⟩)
        · exact ⟨List.mem_cons_self, hn⟩
        · exact ⟨List.mem_cons_of_mem _ h1, h2⟩
      · rintro ⟨h1, h2⟩
        rcases List.mem_cons.mp h1 with rfl | h1
        · rw [hn] at h2; cases h2; exact .inl ⟨rfl, rfl⟩
        · exact .inr ⟨h1, h2⟩

theorem asksId_wildcard (n : Keyword) : ¬ AsksId .wildcard n := by intro h; cases h

theorem prepared_one {s : Schema} {p p' : Puller} {x : PullConcrete} {al : Option Keyword}
    (h : p.wantOne s x al = .ok p') :
    Prepared p (Asks s (.attr x al)) (AsksId (.attr x al)) p' := by
  unfold Puller.wantOne at h
  cases x with
  | ident k =>
    simp only at h
    split at h
    · rename_i hk
      subst hk
      split at h
      · cases h
      · rename_i hd
        cases h
        have hd : p.dbIdAlias = none := by simpa using hd
        have hq : ∀ a n, ¬ Asks s (.attr (.ident dbIdKeyword) al) a n := by
          intro a n hh
          cases hh <;> simp_all
        refine ⟨fun _ _ h => .inl h, fun a n h => ⟨n, h.resolve_left (hq a n)⟩, fun a => ?_, id, fun n => ?_⟩
        · simp [hq]
        · simp only [hd, Option.some.injEq]
          constructor
          · intro hh
            right
            cases al with
            | none => cases hh; exact .plain
            | some m => cases hh; exact .as
          · rintro (hh | hh)
            · cases hh
            · cases hh <;> rfl
    · rename_i hk
      have hi : ∀ n, ¬ AsksId (.attr (.ident k) al) n := by
        intro n hh
        cases hh <;> exact hk rfl
      cases hg : AMap.get s.identMap k with
      | none =>
        rw [hg] at h
        cases h
        refine (Prepared.refl _).congr ?_ (by simpa using hi)
        intro a n
        constructor
        · exact False.elim
        · intro hh
          cases hh <;> simp_all
      | some a =>
        rw [hg] at h
        cases h
        refine (prepared_want p a _).congr ?_ (by simpa using hi)
        intro a' n'
        constructor
        · rintro ⟨rfl, rfl⟩
          cases al with
          | none => exact .ident hk hg
          | some m => exact .identAs hk hg
        · intro hh
          cases hh with
          | ident _ h2 => rw [hg] at h2; cases h2; exact ⟨rfl, rfl⟩
          | identAs _ h2 => rw [hg] at h2; cases h2; exact ⟨rfl, rfl⟩
  | entid a =>
    have hi : ∀ n, ¬ AsksId (.attr (.entid a) al) n := by
      intro n hh
      cases hh
    cases al with
    | some m =>
      cases h
      refine (prepared_want p a m).congr ?_ (by simpa using hi)
      intro a' n'
      constructor
      · rintro ⟨rfl, rfl⟩; exact .entidAs
      · intro hh; cases hh; exact ⟨rfl, rfl⟩
    | none =>
      simp only at h
      unfold pullName at h
      cases hn : AMap.get s.entidMap a with
      | none => rw [hn] at h; simp [Res.bind] at h
      | some m =>
        rw [hn] at h
        cases h
        refine (prepared_want p a m).congr ?_ (by simpa using hi)
        intro a' n'
        constructor
        · rintro ⟨rfl, rfl⟩; exact .entid hn
        · intro hh; cases hh with | entid h2 => rw [hn] at h2; cases h2; exact ⟨rfl, rfl⟩

theorem prepared_from {s : Schema} : ∀ {specs : List PullSpec} {p p' : Puller},
    NoneAfterWildcard specs → Puller.prepareFrom s specs p = .ok p' →
    Prepared p (fun a n => ∃ sp ∈ specs, Asks s sp a n) (fun n => ∃ sp ∈ specs, AsksId sp n) p' := by
  intro specs
  induction specs with
  | nil =>
    intro p p' _ h
    cases h
    exact (Prepared.refl _).congr (by simp) (by simp)
  | cons sp r ih =>
    intro p p' hw h
    cases sp with
    | wildcard =>
      rw [show r = [] from hw] at *
      rw [Puller.prepareFrom] at h
      refine (prepared_all s h).congr ?_ ?_
      · intro a n
        constructor
        · rintro ⟨h1, h2⟩; exact ⟨_, List.mem_cons_self, .wildcard h1 h2⟩
        · rintro ⟨sp, hs, hh⟩
          rw [List.mem_singleton.mp hs] at hh
          cases hh with | wildcard h1 h2 => exact ⟨h1, h2⟩
      · intro n
        constructor
        · exact False.elim
        · rintro ⟨sp, hs, hh⟩
          rw [List.mem_singleton.mp hs] at hh
          exact asksId_wildcard n hh
    | attr x al =>
      rw [Puller.prepareFrom] at h
      cases h1 : p.wantOne s x al with
      | err e => rw [h1] at h; simp [Res.bind] at h
      | panic => rw [h1] at h; simp [Res.bind] at h
      | ok p1 =>
        rw [h1] at h
        refine ((prepared_one h1).trans (ih hw h)).congr ?_ ?_
        · intro a n; simp
        · intro n; simp

end Mentat
