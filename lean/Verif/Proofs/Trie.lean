import Verif.Proofs.Store
/- Helper lemmas on the trie of final terms. -/
namespace Mentat

theorem mem_setInsert {α : Type} [DecidableEq α] {s : List α} {x y : α} :
    y ∈ setInsert s x ↔ y = x ∨ y ∈ s := by
  unfold setInsert; split
  · rename_i h
    constructor
    · exact Or.inr
    · rintro (rfl | h') <;> assumption
  · simp [or_comm]

theorem nodup_setInsert {α : Type} [DecidableEq α] {s : List α} {x : α} (h : s.Nodup) :
    (setInsert s x).Nodup := by
  unfold setInsert; split
  · exact h
  · rename_i hx
    rw [List.nodup_append]
    refine ⟨h, by simp, ?_⟩
    intro a ha b hb; simp at hb; subst hb; rintro rfl; exact hx ha

/-- Well-formed tries: a map, of sets. -/
structure TrieWF (t : Trie) : Prop where
  wf : AMap.WF t
  addNodup : ∀ a e, (Trie.entry t a e).add.Nodup
  retNodup : ∀ a e, (Trie.entry t a e).retract.Nodup

theorem trieWF_nil : TrieWF [] :=
  ⟨AMap.wf_nil, fun _ _ => by simp [Trie.entry], fun _ _ => by simp [Trie.entry]⟩

theorem entry_insert (t : Trie) (a e a' e' : Entid) (ar : AddAndRetract) :
    Trie.entry (AMap.insert t (a, e) ar) a' e' =
      if a = a' ∧ e = e' then ar else Trie.entry t a' e' := by
  unfold Trie.entry
  rw [AMap.get_insert]
  by_cases h : a = a' ∧ e = e'
  · obtain ⟨rfl, rfl⟩ := h; simp
  · have h' : ¬ ((a, e) = (a', e')) := by simpa [Prod.mk.injEq] using h
    simp [h, h']

theorem trieWF_push {t : Trie} (h : TrieWF t) (x : RTerm) : TrieWF (Trie.push t x) := by
  unfold Trie.push
  refine ⟨AMap.wf_insert h.wf _ _, ?_, ?_⟩ <;> intro a e <;> rw [entry_insert] <;> split
  · cases x.op <;> simp only
    · exact nodup_setInsert (h.addNodup _ _)
    · exact h.addNodup _ _
  · exact h.addNodup _ _
  · cases x.op <;> simp only
    · exact h.retNodup _ _
    · exact nodup_setInsert (h.retNodup _ _)
  · exact h.retNodup _ _

theorem mem_push_add {t : Trie} {x : RTerm} {a e v} :
    v ∈ (Trie.entry (Trie.push t x) a e).add ↔
      x = ⟨.add, e, a, v⟩ ∨ v ∈ (Trie.entry t a e).add := by
  unfold Trie.push
  rw [entry_insert]
  obtain ⟨op, e', a', v'⟩ := x
  simp only
  split
  · rename_i h; obtain ⟨rfl, rfl⟩ := h
    cases op <;> simp [mem_setInsert, eq_comm]
  · rename_i h
    constructor
    · exact Or.inr
    · rintro (h' | h')
      · simp only [Term.mk.injEq] at h'; exact absurd ⟨h'.2.2.1, h'.2.1⟩ h
      · exact h'

theorem mem_push_ret {t : Trie} {x : RTerm} {a e v} :
    v ∈ (Trie.entry (Trie.push t x) a e).retract ↔
      x = ⟨.retract, e, a, v⟩ ∨ v ∈ (Trie.entry t a e).retract := by
  unfold Trie.push
  rw [entry_insert]
  obtain ⟨op, e', a', v'⟩ := x
  simp only
  split
  · rename_i h; obtain ⟨rfl, rfl⟩ := h
    cases op <;> simp [mem_setInsert, eq_comm]
  · rename_i h
    constructor
    · exact Or.inr
    · rintro (h' | h')
      · simp only [Term.mk.injEq] at h'; exact absurd ⟨h'.2.2.1, h'.2.1⟩ h
      · exact h'

structure ExtendSpec (s : Schema) (terms : List RTerm) (t t' : Trie) : Prop where
  wf : TrieWF t → TrieWF t'
  add : ∀ a e v, v ∈ (Trie.entry t' a e).add ↔
      (⟨.add, e, a, v⟩ : RTerm) ∈ terms ∨ v ∈ (Trie.entry t a e).add
  ret : ∀ a e v, v ∈ (Trie.entry t' a e).retract ↔
      (⟨.retract, e, a, v⟩ : RTerm) ∈ terms ∨ v ∈ (Trie.entry t a e).retract
  attrs : ∀ x ∈ terms, (s.attr x.a).isSome
  keys : ∀ k ∈ AMap.keys t', k ∈ AMap.keys t ∨ ∃ x ∈ terms, k = (x.a, x.e)

theorem extendTrie_spec {s : Schema} {terms : List RTerm} {t t' : Trie}
    (h : extendTrie s terms t = .ok t') : ExtendSpec s terms t t' := by
  induction terms generalizing t with
  | nil =>
    simp only [extendTrie, Res.ok.injEq] at h; subst h
    exact ⟨id, by simp, by simp, by simp, fun k hk => Or.inl hk⟩
  | cons x xs ih =>
    unfold extendTrie at h
    split at h
    · simp at h
    · rename_i at_ hat
      have hs := ih h
      refine ⟨fun hw => hs.wf (trieWF_push hw x), ?_, ?_, ?_, ?_⟩
      · intro a e v
        rw [hs.add, mem_push_add, List.mem_cons, eq_comm (a := x)]
        constructor
        · rintro (h | h | h) <;> simp [h]
        · rintro ((h | h) | h) <;> simp [h]
      · intro a e v
        rw [hs.ret, mem_push_ret, List.mem_cons, eq_comm (a := x)]
        constructor
        · rintro (h | h | h) <;> simp [h]
        · rintro ((h | h) | h) <;> simp [h]
      · intro y hy
        rcases List.mem_cons.mp hy with rfl | hy
        · simp [hat]
        · exact hs.attrs y hy
      · intro k hk
        rcases hs.keys k hk with h1 | ⟨y, hy, rfl⟩
        · unfold Trie.push at h1
          rw [AMap.keys_insert] at h1
          split at h1
          · exact Or.inl h1
          · rcases List.mem_append.mp h1 with h1 | h1
            · exact Or.inl h1
            · simp at h1; exact Or.inr ⟨x, List.mem_cons_self, h1⟩
        · exact Or.inr ⟨y, List.mem_cons_of_mem _ hy, rfl⟩

theorem entry_of_mem {t : Trie} (h : TrieWF t) {a e ar} (hm : ((a, e), ar) ∈ t) :
    Trie.entry t a e = ar := by
  unfold Trie.entry; rw [AMap.mem_get h.wf hm]

theorem mem_of_entry_ne {t : Trie} {a e} (h : (Trie.entry t a e).add ≠ [] ∨
    (Trie.entry t a e).retract ≠ []) : ((a, e), Trie.entry t a e) ∈ t := by
  unfold Trie.entry at *
  cases hg : AMap.get t (a, e) with
  | some ar => exact AMap.get_some_mem hg
  | none => simp [hg] at h

theorem mem_reducedOf {s : Schema} {t : Trie} (hw : TrieWF t) {q : Reduced} :
    q ∈ reducedOf s t ↔ s.attr q.a = some q.attr ∧
      ((q.added = true ∧ q.v ∈ (Trie.entry t q.a q.e).add) ∨
       (q.added = false ∧ q.v ∈ (Trie.entry t q.a q.e).retract)) := by
  unfold reducedOf
  rw [List.mem_flatMap]
  constructor
  · rintro ⟨⟨⟨a, e⟩, ar⟩, hm, hq⟩
    simp only at hq
    split at hq
    · rename_i at_ hat
      have he := entry_of_mem hw hm
      rw [List.mem_append, List.mem_map, List.mem_map] at hq
      rcases hq with ⟨v, hv, rfl⟩ | ⟨v, hv, rfl⟩ <;> simp [he, hat, hv]
    · simp at hq
  · rintro ⟨hat, h⟩
    refine ⟨((q.a, q.e), Trie.entry t q.a q.e), mem_of_entry_ne ?_, ?_⟩
    · rcases h with ⟨_, h⟩ | ⟨_, h⟩
      · left; intro hn; simp [hn] at h
      · right; intro hn; simp [hn] at h
    · simp only [hat, List.mem_append, List.mem_map]
      obtain ⟨e, a, at_, v, added⟩ := q
      rcases h with ⟨h1, h⟩ | ⟨h1, h⟩
      · simp only at h1 h; subst h1; exact Or.inl ⟨v, h, rfl⟩
      · simp only at h1 h; subst h1; exact Or.inr ⟨v, h, rfl⟩

theorem typeDisagreements_mem {s : Schema} {t : Trie} (hw : TrieWF t) {e a v} :
    (e, a, v) ∈ typeDisagreements s t ↔
      (v ∈ (Trie.entry t a e).add ∨ v ∈ (Trie.entry t a e).retract) ∧
      ∃ at_, s.attr a = some at_ ∧ at_.valueType ≠ v.valueType := by
  unfold typeDisagreements
  rw [List.mem_flatMap]
  constructor
  · rintro ⟨⟨⟨a', e'⟩, ar⟩, hm, hq⟩
    have he := entry_of_mem hw hm
    rw [List.mem_filterMap] at hq
    obtain ⟨v', hv', h⟩ := hq
    split at h
    · rename_i at_ hat
      split at h
      · rename_i hne
        simp only [Option.some.injEq, Prod.mk.injEq] at h
        obtain ⟨rfl, rfl, rfl⟩ := h
        rw [he]; exact ⟨List.mem_append.mp hv', at_, hat, hne⟩
      · simp at h
    · simp at h
  · rintro ⟨h, at_, hat, hne⟩
    refine ⟨((a, e), Trie.entry t a e), mem_of_entry_ne ?_, ?_⟩
    · rcases h with h | h
      · left; intro hn; simp [hn] at h
      · right; intro hn; simp [hn] at h
    · rw [List.mem_filterMap]
      exact ⟨v, List.mem_append.mpr h, by simp [hat, hne]⟩

theorem nodup_length_le_one {α : Type} {l : List α} (hn : l.Nodup) :
    l.length ≤ 1 ↔ ∀ x ∈ l, ∀ y ∈ l, x = y := by
  constructor
  · intro h x hx y hy
    match l, h with
    | [], _ => simp at hx
    | [z], _ => simp at hx hy; rw [hx, hy]
  · intro h
    match l with
    | [] => simp
    | [z] => simp
    | z :: w :: r =>
      exfalso
      have := h z (by simp) w (by simp)
      subst this; simp at hn

theorem cardinalityConflicts_nil {s : Schema} {t : Trie} (hw : TrieWF t) :
    cardinalityConflicts s t = [] ↔
      (∀ a e at_, s.attr a = some at_ → at_.multival = false →
        ∀ v ∈ (Trie.entry t a e).add, ∀ v' ∈ (Trie.entry t a e).add, v = v') ∧
      (∀ a e v, ¬ (v ∈ (Trie.entry t a e).add ∧ v ∈ (Trie.entry t a e).retract)) := by
  unfold cardinalityConflicts
  rw [List.flatMap_eq_nil_iff]
  constructor
  · intro h
    refine ⟨?_, ?_⟩
    · intro a e at_ hat hm v hv v' hv'
      have hmem : ((a, e), Trie.entry t a e) ∈ t :=
        mem_of_entry_ne (Or.inl (by intro hn; simp [hn] at hv))
      have h1 := h _ hmem
      simp only [hat, hm, List.append_eq_nil_iff] at h1
      have h2 := h1.1
      simp only [Bool.not_false, Bool.true_and, decide_eq_true_eq] at h2
      split at h2
      · simp at h2
      · rename_i hlen
        exact (nodup_length_le_one (hw.addNodup a e)).mp (by omega) v hv v' hv'
    · rintro a e v ⟨hv, hv'⟩
      have hmem : ((a, e), Trie.entry t a e) ∈ t :=
        mem_of_entry_ne (Or.inl (by intro hn; simp [hn] at hv))
      have h1 := h _ hmem
      simp only [List.append_eq_nil_iff] at h1
      have h2 := h1.2
      split at h2
      · rename_i hne
        rw [List.isEmpty_iff, List.filter_eq_nil_iff] at hne
        exact hne v hv' (by simpa using hv)
      · simp at h2
  · rintro ⟨h1, h2⟩ ⟨⟨a, e⟩, ar⟩ hm
    have he := entry_of_mem hw hm
    simp only [List.append_eq_nil_iff]
    constructor
    · split
      · rename_i at_ hat
        split
        · rename_i hc
          simp only [Bool.and_eq_true, Bool.not_eq_true', decide_eq_true_eq] at hc
          have := (nodup_length_le_one (hw.addNodup a e)).mpr (h1 a e at_ hat hc.1)
          rw [he] at this; omega
        · rfl
      · rfl
    · split
      · rfl
      · rename_i hne
        exfalso; apply hne
        rw [List.isEmpty_iff, List.filter_eq_nil_iff]
        intro v hv hv'
        refine h2 a e v ?_
        rw [he]; exact ⟨by simpa using hv', hv⟩

end Mentat
