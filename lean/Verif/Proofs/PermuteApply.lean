import Verif.Proofs.Permute
import Verif.Proofs.Effect
import Verif.Proofs.History
import Verif.Proofs.SqlOrder
import Verif.Props.Values
/-
The order in which the terms of a transaction are written: checking and writing them.
-/
namespace Mentat

/-! ### The trie -/

theorem extendTrie_isOk {s : Schema} {l : List RTerm} : ∀ {t},
    (∃ t', extendTrie s l t = .ok t') ↔ ∀ x ∈ l, (s.attr x.a).isSome := by
  induction l with
  | nil => intro t; simp [extendTrie]
  | cons x r ih =>
    intro t
    unfold extendTrie
    rw [List.forall_mem_cons]
    cases s.attr x.a with
    | none => simp
    | some at_ => simp [ih]

theorem intoTrie_isOk {s : Schema} {s3 : Stage3} :
    (∃ t, intoTrie s s3.pops s3.inert = .ok t) ↔ ∀ x ∈ s3.terms, (s.attr x.a).isSome := by
  constructor
  · rintro ⟨t, h⟩; exact (intoTrie_spec h).attrs
  · intro h
    simp only [Stage3.terms, List.mem_append] at h
    obtain ⟨t1, h1⟩ := (extendTrie_isOk (s := s) (t := [])).2 fun x hx => h x (.inl (.inl hx))
    obtain ⟨t2, h2⟩ := (extendTrie_isOk (s := s) (t := t1)).2 fun x hx => h x (.inl (.inr hx))
    obtain ⟨t3, h3⟩ := (extendTrie_isOk (s := s) (t := t2)).2 fun x hx => h x (.inr hx)
    refine ⟨t3, ?_⟩
    unfold intoTrie
    rw [h1]; simp only [Res.ok_bind]; rw [h2]; simp only [Res.ok_bind]; exact h3

structure SameTrie (t t' : Trie) : Prop where
  wf : TrieWF t
  wf' : TrieWF t'
  add : ∀ a e, SameMem (Trie.entry t a e).add (Trie.entry t' a e).add
  ret : ∀ a e, SameMem (Trie.entry t a e).retract (Trie.entry t' a e).retract

theorem SameStage.terms {s s' : Stage3} (h : SameStage s s') : SameMem s.terms s'.terms := by
  intro x
  simp only [Stage3.terms, List.mem_append, h.pops.resolved _, h.pops.allocated _, h.inert _]

theorem intoTrie_follows {s : Schema} {s3 s3' : Stage3} (hs : SameStage s3 s3') {t}
    (h : intoTrie s s3.pops s3.inert = .ok t) :
    ∃ t', intoTrie s s3'.pops s3'.inert = .ok t' ∧ SameTrie t t' := by
  obtain ⟨t', h'⟩ := (intoTrie_isOk (s := s) (s3 := s3')).2 fun x hx =>
    intoTrie_isOk.1 ⟨_, h⟩ x ((hs.terms x).2 hx)
  have a := intoTrie_spec h
  have b := intoTrie_spec h'
  refine ⟨t', h', a.wf, b.wf, fun x e v => ?_, fun x e v => ?_⟩
  · rw [a.add, b.add, hs.terms]
  · rw [a.ret, b.ret, hs.terms]

theorem SameTrie.types {s : Schema} {t t' : Trie} (h : SameTrie t t') (e : typeDisagreements s t = []) :
    typeDisagreements s t' = [] := by
  cases hd : typeDisagreements s t' with
  | nil => rfl
  | cons x r =>
    obtain ⟨en, a, v⟩ := x
    have hm : (en, a, v) ∈ typeDisagreements s t' := by rw [hd]; simp
    rw [typeDisagreements_mem h.wf'] at hm
    rw [← h.add a en v, ← h.ret a en v, ← typeDisagreements_mem h.wf, e] at hm
    simp at hm

theorem SameTrie.cards {s : Schema} {t t' : Trie} (h : SameTrie t t') (e : cardinalityConflicts s t = []) :
    cardinalityConflicts s t' = [] := by
  rw [cardinalityConflicts_nil h.wf] at e
  rw [cardinalityConflicts_nil h.wf']
  refine ⟨?_, ?_⟩
  · intro a en at_ hat hm v hv v' hv'
    exact e.1 a en at_ hat hm v ((h.add a en v).2 hv) v' ((h.add a en v').2 hv')
  · have := e.2
    simp only [h.add _ _ _, h.ret _ _ _] at this
    exact this

theorem SameMem.perm {α : Type} {l l' : List α} (h : SameMem l l') (hn : l.Nodup) (hn' : l'.Nodup) :
    l.Perm l' := (List.perm_ext_iff_of_nodup hn hn').2 h

theorem instant_follows {s : Schema} {t t' : Trie} (ht : SameTrie t t') {tx now i u}
    (h : getOrInsertTxInstant s t tx now = .ok (i, u)) :
    ∃ u', getOrInsertTxInstant s t' tx now = .ok (i, u') ∧ SameTrie u u' := by
  have hp := (ht.add DB_TX_INSTANT tx).perm (ht.wf.addNodup _ _) (ht.wf'.addNodup _ _)
  have ok : ∃ u', getOrInsertTxInstant s t' tx now = .ok (i, u') := by
    unfold getOrInsertTxInstant at h ⊢
    split at h
    · cases h
    · rename_i at_ hat
      simp only at h ⊢
      generalize (Trie.entry t DB_TX_INSTANT tx).add = l at h hp
      split at h
      · simp only [Res.ok.injEq, Prod.mk.injEq] at h
        obtain ⟨rfl, -⟩ := h
        rw [hp.symm.eq_nil]
        exact ⟨_, rfl⟩
      · simp only [Res.ok.injEq, Prod.mk.injEq] at h
        obtain ⟨rfl, -⟩ := h
        rw [List.perm_singleton.1 hp.symm]
        exact ⟨_, rfl⟩
      · cases h
  obtain ⟨u', h'⟩ := ok
  have a := getOrInsertTxInstant_spec ht.wf h
  have b := getOrInsertTxInstant_spec ht.wf' h'
  refine ⟨u', h', a.wf, b.wf, fun x e v => ?_, fun x e v => ?_⟩
  · rw [a.add, b.add, ht.add]
  · rw [a.ret, b.ret, ht.ret]

theorem nodup_flatMap {α β : Type} {l : List α} {f : α → List β} (h1 : ∀ x ∈ l, (f x).Nodup)
    (h2 : l.Pairwise fun x y => ∀ b ∈ f x, b ∉ f y) : (l.flatMap f).Nodup := by
  induction l with
  | nil => simp
  | cons x r ih =>
    rw [List.pairwise_cons] at h2
    rw [List.flatMap_cons, List.nodup_append]
    refine ⟨h1 x (by simp), ih (fun y hy => h1 y (List.mem_cons_of_mem _ hy)) h2.2, ?_⟩
    rintro b hb c hc rfl
    obtain ⟨y, hy, hc⟩ := List.mem_flatMap.1 hc
    exact h2.1 y hy b hb hc

theorem reducedOf_nodup {s : Schema} {t : Trie} (hw : TrieWF t) : (reducedOf s t).Nodup := by
  unfold reducedOf
  refine nodup_flatMap ?_ ?_
  · rintro ⟨⟨a, e⟩, ar⟩ hm
    have he := entry_of_mem hw hm
    have h1 := hw.addNodup a e
    have h2 := hw.retNodup a e
    rw [he] at h1 h2
    simp only
    split
    · rw [List.nodup_append]
      refine ⟨?_, ?_, ?_⟩
      · refine List.Pairwise.map _ ?_ h1
        intro v w hne heq; simp at heq; exact hne heq
      · refine List.Pairwise.map _ ?_ h2
        intro v w hne heq; simp at heq; exact hne heq
      · rintro x hx y hy rfl
        obtain ⟨v, -, rfl⟩ := List.mem_map.1 hx
        obtain ⟨w, -, h⟩ := List.mem_map.1 hy
        simp at h
    · simp
  · have hk : t.Pairwise fun x y => x.1 ≠ y.1 := List.pairwise_map.1 hw.wf
    refine hk.imp ?_
    rintro ⟨⟨a, e⟩, ar⟩ ⟨⟨a', e'⟩, ar'⟩ hne q hq hq'
    apply hne
    have k : ∀ {a e : Entid} {ar : AddAndRetract}, q ∈ (match s.attr a with
      | some at_ =>
        (ar.add.map fun v => ({ e := e, a := a, attr := at_, v := v, added := true } : Reduced)) ++
        (ar.retract.map fun v => ({ e := e, a := a, attr := at_, v := v, added := false } : Reduced))
      | none => []) → q.a = a ∧ q.e = e := by
      intro a e ar h
      split at h
      · rcases List.mem_append.1 h with h | h <;>
          (obtain ⟨v, -, rfl⟩ := List.mem_map.1 h; exact ⟨rfl, rfl⟩)
      · simp at h
    have k1 := k hq
    have k2 := k hq'
    simp only [Prod.mk.injEq]
    exact ⟨k1.1.symm.trans k2.1, k1.2.symm.trans k2.2⟩

theorem SameTrie.queue {s : Schema} {t t' : Trie} (h : SameTrie t t') :
    (reducedOf s t).Perm (reducedOf s t') := by
  refine SameMem.perm (fun q => ?_) (reducedOf_nodup h.wf) (reducedOf_nodup h.wf')
  rw [mem_reducedOf h.wf, mem_reducedOf h.wf', h.add, h.ret]

/-! ### The store -/

theorem uniqueOk_perm {l l' : List Row} (h : l.Perm l') : uniqueOk l = uniqueOk l' := by
  rw [Bool.eq_iff_iff, uniqueOk_iff, uniqueOk_iff]
  refine h.pairwise_iff ?_
  rintro x y ⟨h1, h2⟩
  exact ⟨fun ⟨a, b, c⟩ => h1 ⟨a.symm, b.symm, c.symm⟩, fun ⟨a, b, c, d⟩ => h2 ⟨b, a, c.symm, d.symm⟩⟩

theorem inexactUniqueOk_iff {l : List Reduced} : inexactUniqueOk l = true ↔
    l.Pairwise fun q q' => ¬ (q.attr.multival = false ∧ q.added = true ∧ q'.attr.multival = false ∧
      q'.added = true ∧ q'.e = q.e ∧ q'.a = q.a) := by
  induction l with
  | nil => simp [inexactUniqueOk]
  | cons q r ih =>
    unfold inexactUniqueOk
    simp only [Bool.and_eq_true, ih, List.pairwise_cons, Bool.or_eq_true, List.all_eq_true, decide_eq_true_eq,
      Bool.not_eq_true']
    cases q.attr.multival <;> cases q.added <;> simp
    intro _
    refine forall_congr' fun x => ?_
    cases x.attr.multival <;> cases x.added <;> simp

theorem inexactUniqueOk_perm {l l' : List Reduced} (h : l.Perm l') :
    inexactUniqueOk l = inexactUniqueOk l' := by
  rw [Bool.eq_iff_iff, inexactUniqueOk_iff, inexactUniqueOk_iff]
  refine h.pairwise_iff ?_
  rintro x y h1 ⟨a, b, c, d, e, f⟩
  exact h1 ⟨c, d, a, b, e.symm, f.symm⟩

theorem foundUniqueOk_iff {l : List Found} : foundUniqueOk l = true ↔
    l.Pairwise fun f f' => ¬ (f'.q.e = f.q.e ∧ f'.q.a = f.q.a ∧ f'.q.v = f.q.v) := by
  induction l with
  | nil => simp [foundUniqueOk]
  | cons q r ih =>
    unfold foundUniqueOk
    simp only [Bool.and_eq_true, ih, List.pairwise_cons, List.all_eq_true, decide_eq_true_eq]

theorem foundUniqueOk_perm {l l' : List Found} (h : l.Perm l') : foundUniqueOk l = foundUniqueOk l' := by
  rw [Bool.eq_iff_iff, foundUniqueOk_iff, foundUniqueOk_iff]
  refine h.pairwise_iff ?_
  rintro x y h1 ⟨a, b, c⟩
  exact h1 ⟨a.symm, b.symm, c.symm⟩

theorem deleteRows_perm {rows : List Row} {fs fs' : List Found} (h : fs.Perm fs') :
    deleteRows rows fs = deleteRows rows fs' := by
  unfold deleteRows
  refine List.filter_congr fun r _ => ?_
  congr 1
  rw [Bool.eq_iff_iff, List.any_eq_true, List.any_eq_true]
  simp only [h.mem_iff]

theorem dedup_perm {α : Type} [DecidableEq α] {l l' : List α} (h : l.Perm l') : (dedup l).Perm (dedup l') :=
  SameMem.perm (fun x => by rw [mem_dedup, mem_dedup, h.mem_iff]) (nodup_dedup _) (nodup_dedup _)

theorem logRowsOf_perm {tx : Entid} {fs fs' : List Found} (h : fs.Perm fs') :
    (logRowsOf tx fs).Perm (logRowsOf tx fs') :=
  ((h.filter _).map _).append (dedup_perm (h.filterMap _))

structure SameStore (st st' : Store) : Prop where
  rows : st.rows.Perm st'.rows
  log : st.log.Perm st'.log

theorem apply_follows {st : Store} {tx : Entid} {qs qs' : List Reduced} (hq : qs.Perm qs') {act st1 lr}
    (h : st.apply tx qs act = .ok (st1, lr)) :
    ∃ st1' lr', st.apply tx qs' act = .ok (st1', lr') ∧ SameStore st1 st1' ∧ lr.Perm lr' := by
  have hs : (search st.rows qs).Perm (search st.rows qs') := hq.flatMap_right _
  have hr : (deleteRows st.rows (search st.rows qs) ++ insertRows tx (search st.rows qs)).Perm
      (deleteRows st.rows (search st.rows qs') ++ insertRows tx (search st.rows qs')) := by
    rw [deleteRows_perm hs]
    exact (List.Perm.refl _).append ((hs.filter _).map _)
  have hl := logRowsOf_perm (tx := tx) hs
  unfold Store.apply updateDatoms at h ⊢
  simp only at h ⊢
  rw [← inexactUniqueOk_perm hq, ← foundUniqueOk_perm hs, ← uniqueOk_perm hr]
  split at h
  · cases h
  · rename_i hc
    rw [if_neg hc]
    by_cases hu : uniqueOk (deleteRows st.rows (search st.rows qs) ++ insertRows tx (search st.rows qs)) = true
    · rw [if_pos hu] at h ⊢
      cases act with
      | materialize =>
        simp only [Res.ok.injEq, Prod.mk.injEq] at h
        obtain ⟨rfl, rfl⟩ := h
        exact ⟨_, _, rfl, ⟨hr, .refl _⟩, hl⟩
      | materializeAndCommit =>
        simp only [Res.ok.injEq, Prod.mk.injEq] at h
        obtain ⟨rfl, rfl⟩ := h
        exact ⟨_, _, rfl, ⟨hr, (List.Perm.refl _).append hl⟩, hl⟩
    · rw [if_neg hu] at h
      cases h

/-! ### Metadata -/

theorem quadLt_asymm {p q} (h : quadLt p q = true) : quadLt q p = false := by
  obtain ⟨e, a, v, b⟩ := p
  obtain ⟨e', a', v', b'⟩ := q
  simp only [quadLt, Bool.or_eq_true, Bool.and_eq_true, decide_eq_true_eq, Bool.not_eq_true'] at h
  simp only [quadLt, Bool.or_eq_false_iff, Bool.and_eq_false_iff, decide_eq_false_iff_not,
    Bool.not_eq_false']
  rcases h with h | ⟨rfl, h | ⟨rfl, h | ⟨h1, h | ⟨h2, h3, h4⟩⟩⟩⟩
  · exact ⟨by omega, .inl (by omega)⟩
  · exact ⟨by omega, .inr ⟨by omega, .inl (by omega)⟩⟩
  · exact ⟨by omega, .inr ⟨by omega, .inr ⟨SqlValue.lt_asymm h, .inl h⟩⟩⟩
  · exact ⟨by omega, .inr ⟨by omega, .inr ⟨h1, .inr ⟨by omega, .inl (by omega)⟩⟩⟩⟩
  · exact ⟨by omega, .inr ⟨by omega, .inr ⟨h1, .inr ⟨by omega, .inr (.inl h4)⟩⟩⟩⟩

theorem quadLt_neg {p q r} (h : quadLt p q = false) (h' : quadLt q r = false) : quadLt p r = false := by
  obtain ⟨e, a, v, b⟩ := p
  obtain ⟨e', a', v', b'⟩ := q
  obtain ⟨e'', a'', v'', b''⟩ := r
  simp only [quadLt, Bool.or_eq_false_iff, Bool.and_eq_false_iff, decide_eq_false_iff_not,
    Bool.not_eq_false'] at h h' ⊢
  obtain ⟨h1, h2⟩ := h
  obtain ⟨k1, k2⟩ := h'
  refine ⟨by omega, ?_⟩
  by_cases c1 : e = e''
  · right
    have h2 := h2.resolve_left (by omega)
    have k2 := k2.resolve_left (by omega)
    refine ⟨by omega, ?_⟩
    by_cases c2 : a = a''
    · right
      have h3 := h2.2.resolve_left (by omega)
      have k3 := k2.2.resolve_left (by omega)
      refine ⟨SqlValue.lt_neg h3.1 k3.1, ?_⟩
      cases c3 : v''.toSql.1.lt v.toSql.1 with
      | true => exact .inl rfl
      | false =>
        right
        have e1 : v'.toSql.1.lt v.toSql.1 = false := SqlValue.lt_neg k3.1 c3
        have e2 : v''.toSql.1.lt v'.toSql.1 = false := SqlValue.lt_neg c3 h3.1
        have h4 := h3.2.resolve_left (by rw [e1]; simp)
        have k4 := k3.2.resolve_left (by rw [e2]; simp)
        refine ⟨by omega, ?_⟩
        by_cases c4 : v.toSql.2 = v''.toSql.2
        · right
          have h5 := h4.2.resolve_left (by omega)
          have k5 := k4.2.resolve_left (by omega)
          cases b <;> cases b' <;> cases b'' <;> simp_all
        · exact .inl c4
    · exact .inl c2
  · exact .inl c1

theorem insertQuad_sorted {x} : ∀ {l}, l.Pairwise (fun p q => quadLt q p = false) →
    (insertQuad x l).Pairwise (fun p q => quadLt q p = false)
  | [], _ => by simp [insertQuad]
  | y :: r, h => by
    unfold insertQuad
    have h' := List.pairwise_cons.1 h
    split
    · rename_i hlt
      refine List.pairwise_cons.2 ⟨?_, insertQuad_sorted h'.2⟩
      intro z hz
      rcases List.mem_cons.1 ((insertQuad_perm x r).mem_iff.1 hz) with rfl | hz
      · exact quadLt_asymm hlt
      · exact h'.1 z hz
    · rename_i hlt
      refine List.pairwise_cons.2 ⟨?_, h⟩
      intro z hz
      rcases List.mem_cons.1 hz with rfl | hz
      · simpa using hlt
      · exact quadLt_neg (h'.1 z hz) (by simpa using hlt)

theorem sortQuads_sorted : ∀ l, (sortQuads l).Pairwise (fun p q => quadLt q p = false)
  | [] => .nil
  | x :: r => insertQuad_sorted (sortQuads_sorted r)

/-- The values `ORDER BY` cannot tell apart are equal. -/
def Told (lr : List LogRow) : Prop :=
  ∀ l ∈ lr, ∀ l' ∈ lr, l.a ∈ metadataList → l.e = l'.e → l.a = l'.a → l.added = l'.added →
    l.v.toSql.1.lt l'.v.toSql.1 = false → l'.v.toSql.1.lt l.v.toSql.1 = false → l.v = l'.v

theorem metadataAssertions_perm {lr lr' : List LogRow} (h : lr.Perm lr') (ht : Told lr) :
    metadataAssertions lr = metadataAssertions lr' := by
  unfold metadataAssertions
  refine List.Perm.eq_of_pairwise ?_ (sortQuads_sorted _) (sortQuads_sorted _)
    (((sortQuads_perm _).trans ((h.filter _).map _)).trans (sortQuads_perm _).symm)
  intro p q hp hq h1 h2
  rw [mem_sortQuads, List.mem_map] at hp hq
  obtain ⟨l, hl, rfl⟩ := hp
  obtain ⟨l', hl', rfl⟩ := hq
  simp only [List.mem_filter, decide_eq_true_eq] at hl hl'
  simp only [quadLt, Bool.or_eq_false_iff, Bool.and_eq_false_iff, decide_eq_false_iff_not,
    Bool.not_eq_false'] at h1 h2
  obtain ⟨a1, a2⟩ := h1
  obtain ⟨b1, b2⟩ := h2
  have e1 : l.e = l'.e := by omega
  have a2 := a2.resolve_left (by omega)
  have b2 := b2.resolve_left (by omega)
  have e2 : l.a = l'.a := by omega
  have a3 := a2.2.resolve_left (by omega)
  have b3 := b2.2.resolve_left (by omega)
  have a4 := a3.2.resolve_left (by rw [b3.1]; simp)
  have b4 := b3.2.resolve_left (by rw [a3.1]; simp)
  have a5 := a4.2.resolve_left (by omega)
  have b5 := b4.2.resolve_left (by omega)
  have e4 : l.added = l'.added := by
    cases h1 : l.added <;> cases h2 : l'.added <;> simp_all
  have e3 : l.v = l'.v := ht l hl.1 l' (h.mem_iff.2 hl'.1) hl.2 e1 e2 e4 b3.1 a3.1
  rw [e1, e2, e3, e4]

structure SameViews (v v' : Views) : Prop where
  idents : v.idents.Perm v'.idents
  schema : v.schema.Perm v'.schema

theorem applyAlteration_follows {at_ : Attribute} {e : Entid} {x : Alteration} {rows rows' : List Row}
    (hr : rows.Perm rows') {rows1} (h : applyAlteration at_ e rows x = .ok rows1) :
    ∃ rows1', applyAlteration at_ e rows' x = .ok rows1' ∧ rows1.Perm rows1' := by
  cases x with
  | index =>
    simp only [applyAlteration, Res.ok.injEq] at h ⊢
    subst h
    exact ⟨_, rfl, hr.map _⟩
  | unique =>
    simp only [applyAlteration] at h ⊢
    have hm := hr.map fun r => if r.a = e then { r with uniq := at_.unique.isSome } else r
    rw [← uniqueOk_perm hm]
    split at h
    · rename_i hu
      rw [if_pos hu]
      simp only [Res.ok.injEq] at h
      subst h
      exact ⟨_, rfl, hm⟩
    · split at h <;> cases h
  | cardinality =>
    simp only [applyAlteration] at h ⊢
    split at h
    · rename_i hu
      rw [if_pos hu]
      cases h
      exact ⟨_, rfl, hr⟩
    · cases h
  | noHistory => simp only [applyAlteration, Res.ok.injEq] at h ⊢; subst h; exact ⟨_, rfl, hr⟩
  | isComponent => simp only [applyAlteration, Res.ok.injEq] at h ⊢; subst h; exact ⟨_, rfl, hr⟩

theorem applyAlterations_follows {at_ : Attribute} {e : Entid} : ∀ {xs : List Alteration}
    {rows rows' : List Row}, rows.Perm rows' → ∀ {rows1}, applyAlterations at_ e xs rows = .ok rows1 →
    ∃ rows1', applyAlterations at_ e xs rows' = .ok rows1' ∧ rows1.Perm rows1'
  | [], rows, rows', hr, rows1, h => by
    simp only [applyAlterations, Res.ok.injEq] at h ⊢; subst h; exact ⟨_, rfl, hr⟩
  | x :: xs, rows, rows', hr, rows1, h => by
    unfold applyAlterations at h ⊢
    cases hx : applyAlteration at_ e rows x with
    | ok rows2 =>
      rw [hx] at h
      obtain ⟨rows2', hx', hr2⟩ := applyAlteration_follows hr hx
      rw [hx']
      exact applyAlterations_follows hr2 h
    | err e => rw [hx] at h; cases h
    | panic => rw [hx] at h; cases h

theorem applyAllAlterations_follows {s : Schema} : ∀ {m : AMap Entid (List Alteration)}
    {rows rows' : List Row}, rows.Perm rows' → ∀ {rows1}, applyAllAlterations s m rows = .ok rows1 →
    ∃ rows1', applyAllAlterations s m rows' = .ok rows1' ∧ rows1.Perm rows1'
  | [], rows, rows', hr, rows1, h => by
    simp only [applyAllAlterations, Res.ok.injEq] at h ⊢; subst h; exact ⟨_, rfl, hr⟩
  | (e, xs) :: m, rows, rows', hr, rows1, h => by
    unfold applyAllAlterations at h ⊢
    cases ha : s.attr e with
    | none => rw [ha] at h; cases h
    | some at_ =>
      rw [ha] at h
      simp only at h ⊢
      cases hx : applyAlterations at_ e xs rows with
      | ok rows2 =>
        rw [hx] at h
        obtain ⟨rows2', hx', hr2⟩ := applyAlterations_follows hr hx
        rw [hx']
        exact applyAllAlterations_follows hr2 h
      | err e => rw [hx] at h; cases h
      | panic => rw [hx] at h; cases h

theorem identsOf_perm {rows rows' : List Row} (h : rows.Perm rows') : (identsOf rows).Perm (identsOf rows') :=
  (h.filter _).map _

theorem schemaOf_perm {rows rows' : List Row} (h : rows.Perm rows') : (schemaOf rows).Perm (schemaOf rows') := by
  have e : ∀ r : Row, (decide (r.a ∈ schemaList) && rows.any fun r' => decide (r'.a = DB_VALUE_TYPE ∧ r'.e = r.e)) =
      (decide (r.a ∈ schemaList) && rows'.any fun r' => decide (r'.a = DB_VALUE_TYPE ∧ r'.e = r.e)) := by
    intro r
    congr 1
    rw [Bool.eq_iff_iff, List.any_eq_true, List.any_eq_true]
    simp only [h.mem_iff]
  unfold schemaOf
  simp only [e]
  exact (h.filter _).map _

theorem updateMetadata_follows {s : Schema} {rep : MetadataReport} {rows rows' : List Row}
    (hr : rows.Perm rows') {views views' : Views} (hv : SameViews views views') {rows1 views1}
    (h : updateMetadata s rep rows views = .ok (rows1, views1)) :
    ∃ rows1' views1', updateMetadata s rep rows' views' = .ok (rows1', views1') ∧ rows1.Perm rows1' ∧
      SameViews views1 views1' := by
  unfold updateMetadata at h ⊢
  simp only at h ⊢
  cases ha : applyAllAlterations s rep.altered rows with
  | ok rows2 =>
    rw [ha] at h
    obtain ⟨rows2', ha', hr2⟩ := applyAllAlterations_follows hr ha
    rw [ha']
    simp only [Res.ok.injEq, Prod.mk.injEq] at h ⊢
    obtain ⟨rfl, rfl⟩ := h
    refine ⟨_, _, ⟨rfl, rfl⟩, hr2, ?_⟩
    have h1 : SameViews (if rep.identsAltered.isEmpty then views else { views with idents := identsOf rows })
        (if rep.identsAltered.isEmpty then views' else { views' with idents := identsOf rows' }) := by
      split
      · exact hv
      · exact ⟨identsOf_perm hr, hv.schema⟩
    generalize (if rep.identsAltered.isEmpty then views else { views with idents := identsOf rows }) = w at h1
    generalize (if rep.identsAltered.isEmpty then views' else { views' with idents := identsOf rows' }) = w' at h1
    split
    · exact h1
    · exact ⟨h1.idents, schemaOf_perm hr⟩
  | err e => rw [ha] at h; cases h
  | panic => rw [ha] at h; cases h

theorem applyMetadata_follows {s : Schema} {rows rows' : List Row} (hr : rows.Perm rows')
    {views views' : Views} (hv : SameViews views views') {lr lr' : List LogRow} (hl : lr.Perm lr') (ht : Told lr) {s1 rows1 views1}
    (h : applyMetadata s rows views lr = .ok (s1, rows1, views1)) :
    ∃ rows1' views1', applyMetadata s rows' views' lr' = .ok (s1, rows1', views1') ∧ rows1.Perm rows1' ∧
      SameViews views1 views1' := by
  unfold applyMetadata at h ⊢
  rw [← metadataAssertions_perm hl ht]
  rw [Res.bind_eq_ok] at h
  obtain ⟨⟨s2, rep⟩, h1, h⟩ := h
  rw [h1]
  simp only [Res.ok_bind] at h ⊢
  split at h
  · rename_i hs
    rw [if_pos hs]
    rw [Res.bind_eq_ok] at h
    obtain ⟨⟨rows2, views2⟩, h2, h⟩ := h
    simp only [Res.pure_eq, Res.ok.injEq, Prod.mk.injEq] at h
    obtain ⟨rfl, rfl, rfl⟩ := h
    obtain ⟨rows2', views2', h2', h3, h4⟩ := updateMetadata_follows hr hv h2
    rw [h2']
    exact ⟨_, _, rfl, h3, h4⟩
  · rename_i hs
    rw [if_neg hs]
    simp only [Res.pure_eq, Res.ok.injEq, Prod.mk.injEq] at h
    obtain ⟨rfl, rfl, rfl⟩ := h
    exact ⟨_, _, rfl, hr, hv⟩

/-! ### The whole -/

/-- The same database, up to the order of the rows of its tables. -/
structure SameDb (db db' : Db) : Prop where
  schema : db.schema = db'.schema
  parts : db.parts = db'.parts
  store : SameStore db.store db'.store
  views : SameViews db.views db'.views

structure SameReport (r r' : Report) : Prop where
  txId : r.txId = r'.txId
  txInstant : r.txInstant = r'.txInstant
  tempids : List.Perm r.tempids r'.tempids

theorem externalTempIds_perm {m m' : TempIdMap} (h : List.Perm m m') :
    List.Perm (externalTempIds m) (externalTempIds m') := by
  induction h with
  | nil => exact .refl _
  | cons x _ ih =>
    obtain ⟨t, e⟩ := x
    cases t with
    | external s => exact ih.cons _
    | internal n => exact ih
  | swap x y l =>
    obtain ⟨t, e⟩ := x
    obtain ⟨u, f⟩ := y
    cases t <;> cases u <;> simp only [externalTempIds]
    · exact .swap _ _ _
    · exact .refl _
    · exact .refl _
    · exact .refl _
  | trans _ _ ih1 ih2 => exact ih1.trans ih2

/-- What a successful transaction with `terms` has in common with one with `terms'`. -/
theorem transact_follows {db : Db} {sfm now} {terms terms' : List TTerm} {ids ids' act db1 rep}
    (hl : SameMem terms terms') (hi : ids.Perm ids')
    (h : transactTermsWith db sfm now terms ids act = .ok (db1, rep))
    (ht : ∀ T : TxTrace db sfm now terms ids act db1 rep, Told T.lr) :
    ∃ db1' rep', transactTermsWith db sfm now terms' ids' act = .ok (db1', rep') ∧ SameDb db1 db1' ∧
      SameReport rep rep' := by
  obtain ⟨T⟩ := transact_trace h
  obtain ⟨s3', hs3, hst⟩ := resolveTempIds_follows hl hi T.stage3
  obtain ⟨t0', ht0, hsame⟩ := intoTrie_follows hst T.trie
  obtain ⟨t', hti, hsame'⟩ := instant_follows hsame T.instant
  obtain ⟨st', lr', hap, hss, hlr⟩ := apply_follows hsame'.queue T.applied
  have hq := hsame'.queue (s := db.schema)
  have hany : (reducedOf db.schema t').any (fun q => mightUpdateMetadata q.a) =
      (reducedOf db.schema T.t).any (fun q => mightUpdateMetadata q.a) := by
    rw [Bool.eq_iff_iff, List.any_eq_true, List.any_eq_true]
    simp only [hq.mem_iff]
  unfold transactTermsWith
  rw [T.alloc]
  simp only [Res.ok_bind]
  rw [hs3]
  simp only [Res.ok_bind]
  rw [ht0]
  simp only [Res.ok_bind]
  unfold applyTrie
  rw [hsame.types T.typesOk, hsame.cards T.cardsOk]
  simp only [Res.require, if_true, Res.ok_bind]
  rw [hti]
  simp only [Res.ok_bind]
  rw [hap]
  simp only [Res.ok_bind]
  rw [hany]
  have hparts := T.parts
  rw [hst.user] at hparts
  have hrep : SameReport rep ⟨rep.txId, rep.txInstant, externalTempIds s3'.tempids⟩ :=
    ⟨rfl, rfl, by rw [T.tempids]; exact externalTempIds_perm hst.tempids⟩
  rcases T.md with ⟨hm, q, hq1, hq2⟩ | ⟨hm1, hm2, hm3, hm4⟩
  · have : (reducedOf db.schema T.t).any (fun q => mightUpdateMetadata q.a) = true := by
      rw [List.any_eq_true]; exact ⟨q, hq1, hq2⟩
    rw [if_pos this]
    obtain ⟨rows1', views1', hm', h3, h4⟩ := applyMetadata_follows hss.rows ⟨.refl _, .refl _⟩ hlr (ht T) hm
    rw [hm']
    simp only [Res.ok_bind, Res.pure_eq]
    refine ⟨_, _, rfl, ⟨rfl, hparts, ⟨h3, ?_⟩, h4⟩, hrep⟩
    rw [T.log]; exact hss.log
  · have : ¬ (reducedOf db.schema T.t).any (fun q => mightUpdateMetadata q.a) = true := by
      rw [List.any_eq_true]
      rintro ⟨q, h1, h2⟩
      rw [hm4 q h1] at h2; cases h2
    rw [if_neg this]
    simp only [Res.ok_bind, Res.pure_eq]
    refine ⟨_, _, rfl, ⟨hm1, hparts, ⟨?_, ?_⟩, ?_⟩, hrep⟩
    · rw [hm2]; exact hss.rows
    · rw [T.log]; exact hss.log
    · rw [hm3]; exact ⟨.refl _, .refl _⟩

end Mentat
