import Verif.Proofs.Trie
import Verif.Model.Transact
/- Row invariants and their preservation by `Store.apply`. -/
namespace Mentat

/-- Invariant of the datoms table with respect to a schema. -/
structure RowsInv (s : Schema) (rows : List Row) : Prop where
  uniq : uniqueOk rows = true
  typed : ∀ r ∈ rows, ∃ at_, s.attr r.a = some at_ ∧ at_.valueType = r.v.valueType ∧
    r.uniq = at_.unique.isSome ∧ r.avet = at_.index
  one : ∀ r ∈ rows, ∀ r' ∈ rows, ∀ at_, s.attr r.a = some at_ → at_.multival = false →
    r.e = r'.e → r.a = r'.a → r = r'

/-- What the checks on the trie guarantee about the queue. -/
structure QOk (s : Schema) (qs : List Reduced) : Prop where
  attr : ∀ q ∈ qs, s.attr q.a = some q.attr
  typed : ∀ q ∈ qs, q.attr.valueType = q.v.valueType
  one : ∀ q ∈ qs, ∀ q' ∈ qs, q.added = true → q'.added = true → q.attr.multival = false →
    q.e = q'.e → q.a = q'.a → q.v = q'.v

theorem rowsInv_nil (s : Schema) : RowsInv s [] := ⟨rfl, by simp, by simp⟩

theorem rowsInv_apply {s : Schema} {st : Store} {tx qs act st' lr}
    (hi : RowsInv s st.rows) (hq : QOk s qs) (h : st.apply tx qs act = .ok (st', lr)) :
    RowsInv s st'.rows := by
  obtain ⟨hrows, hu, -, -⟩ := apply_ok h
  have hmem : ∀ r, r ∈ st'.rows ↔ (r ∈ st.rows ∧ ¬ ∃ q ∈ qs, Deletes q r) ∨
      (∃ q ∈ qs, Inserts st.rows q ∧ r = newRow tx q) := by
    intro r; rw [hrows, mem_newRows]
  refine ⟨hu, ?_, ?_⟩
  · intro r hr
    rcases (hmem r).mp hr with ⟨hr', -⟩ | ⟨q, hq', -, rfl⟩
    · exact hi.typed r hr'
    · exact ⟨q.attr, hq.attr q hq', hq.typed q hq', rfl, rfl⟩
  · -- an inserted row excludes any surviving row of the same (e, a)
    have key : ∀ q ∈ qs, Inserts st.rows q → q.attr.multival = false → ∀ r ∈ st.rows,
        (¬ ∃ q ∈ qs, Deletes q r) → r.e = q.e → r.a = q.a → False := by
      intro q hq' hins hm r hr hnd he ha
      have hj : Joins q r := ⟨he, ha, by simp [hm]⟩
      obtain ⟨hadd, hn | ⟨r2, hr2, hj2, hv⟩⟩ := hins
      · exact hn r hr hj
      · have : r2 = r := hi.one r2 hr2 r hr q.attr (by rw [hj2.2.1]; exact hq.attr q hq') hm
          (by rw [hj2.1, he]) (by rw [hj2.2.1, ha])
        subst this
        exact hnd ⟨q, hq', hj, Or.inr ⟨hm, hv⟩⟩
    intro r hr r' hr' at_ hat hm he ha
    rcases (hmem r).mp hr with ⟨h1, hn1⟩ | ⟨q, hq1, hi1, rfl⟩ <;>
      rcases (hmem r').mp hr' with ⟨h2, hn2⟩ | ⟨q', hq2, hi2, rfl⟩
    · exact hi.one r h1 r' h2 at_ hat hm he ha
    · exfalso
      have : q'.attr = at_ := by
        have := hq.attr q' hq2; rw [show q'.a = r.a from ha.symm, hat] at this; exact (Option.some.inj this).symm
      exact key q' hq2 hi2 (by rw [this]; exact hm) r h1 hn1 he ha
    · exfalso
      have : q.attr = at_ := by
        have := hq.attr q hq1; rw [show s.attr q.a = some at_ from hat] at this; exact (Option.some.inj this).symm
      exact key q hq1 hi1 (by rw [this]; exact hm) r' h2 hn2 he.symm ha.symm
    · have hqa : q.attr = at_ := by
        have := hq.attr q hq1; rw [show s.attr q.a = some at_ from hat] at this; exact (Option.some.inj this).symm
      have hv := hq.one q hq1 q' hq2 hi1.1 hi2.1 (by rw [hqa]; exact hm) he ha
      exact uniqueOk_eav hu hr hr' he ha hv

/-- The queue built from a trie that passed the checks. -/
theorem qok_reducedOf {s : Schema} {t : Trie} (hw : TrieWF t)
    (ht : typeDisagreements s t = [])
    (hc : cardinalityConflicts s t = []) : QOk s (reducedOf s t) := by
  obtain ⟨hc1, hc2⟩ := (cardinalityConflicts_nil hw).mp hc
  refine ⟨fun q hq => ((mem_reducedOf hw).mp hq).1, ?_, ?_⟩
  · intro q hq
    obtain ⟨hat, h⟩ := (mem_reducedOf hw).mp hq
    by_cases hne : q.attr.valueType = q.v.valueType
    · exact hne
    · exfalso
      have : (q.e, q.a, q.v) ∈ typeDisagreements s t :=
        (typeDisagreements_mem hw).mpr ⟨by rcases h with ⟨_, h⟩ | ⟨_, h⟩ <;> simp [h], q.attr, hat, hne⟩
      simp [ht] at this
  · intro q hq q' hq' ha ha' hm he hea
    obtain ⟨hat, h⟩ := (mem_reducedOf hw).mp hq
    obtain ⟨hat', h'⟩ := (mem_reducedOf hw).mp hq'
    have h1 : q.v ∈ (Trie.entry t q.a q.e).add := by
      rcases h with ⟨_, h⟩ | ⟨hf, _⟩
      · exact h
      · simp [ha] at hf
    have h2 : q'.v ∈ (Trie.entry t q'.a q'.e).add := by
      rcases h' with ⟨_, h⟩ | ⟨hf, _⟩
      · exact h
      · simp [ha'] at hf
    rw [← he, ← hea] at h2
    exact hc1 q.a q.e q.attr hat hm _ h1 _ h2

/-- The trie after `get_or_insert_tx_instant`. -/
structure InstantSpec (s : Schema) (t t' : Trie) (tx : Entid) (i : Int) : Prop where
  wf : TrieWF t'
  add : ∀ a e v, v ∈ (Trie.entry t' a e).add ↔
    v ∈ (Trie.entry t a e).add ∨ (a = DB_TX_INSTANT ∧ e = tx ∧ v = .instant i)
  ret : ∀ a e, (Trie.entry t' a e).retract = (Trie.entry t a e).retract
  only : ∀ v ∈ (Trie.entry t' DB_TX_INSTANT tx).add, v = .instant i
  attr : (s.attr DB_TX_INSTANT).isSome
  keys : ∀ k ∈ AMap.keys t', k ∈ AMap.keys t ∨ k = (DB_TX_INSTANT, tx)

theorem getOrInsertTxInstant_spec {s : Schema} {t t' : Trie} {tx now i}
    (hw : TrieWF t) (h : getOrInsertTxInstant s t tx now = .ok (i, t')) :
    InstantSpec s t t' tx i := by
  unfold getOrInsertTxInstant at h
  split at h
  · simp at h
  · rename_i at_ hat
    simp only at h
    split at h
    · rename_i hnil
      simp only [Res.ok.injEq, Prod.mk.injEq] at h
      obtain ⟨rfl, rfl⟩ := h
      refine ⟨⟨AMap.wf_insert hw.wf _ _, ?_, ?_⟩, ?_, ?_, ?_, by simp [hat], ?_⟩
      · intro a e; rw [entry_insert]; split
        · simp
        · exact hw.addNodup a e
      · intro a e; rw [entry_insert]; split
        · exact hw.retNodup _ _
        · exact hw.retNodup a e
      · intro a e v; rw [entry_insert]; split
        · rename_i hh; obtain ⟨rfl, rfl⟩ := hh; simp [hnil]
        · rename_i hh
          constructor
          · exact Or.inl
          · rintro (h | ⟨rfl, rfl, -⟩)
            · exact h
            · exact absurd ⟨rfl, rfl⟩ hh
      · intro a e; rw [entry_insert]; split
        · rename_i hh; obtain ⟨rfl, rfl⟩ := hh; rfl
        · rfl
      · intro v hv; rw [entry_insert] at hv; simpa using hv
      · intro k hk
        rw [AMap.keys_insert] at hk
        split at hk
        · exact Or.inl hk
        · rcases List.mem_append.mp hk with h | h
          · exact Or.inl h
          · right; simpa using h
    · rename_i i' hone
      simp only [Res.ok.injEq, Prod.mk.injEq] at h
      obtain ⟨rfl, rfl⟩ := h
      refine ⟨hw, ?_, fun _ _ => rfl, ?_, by simp [hat], fun k hk => Or.inl hk⟩
      · intro a e v
        constructor
        · exact Or.inl
        · rintro (h | ⟨rfl, rfl, rfl⟩)
          · exact h
          · simp [hone]
      · intro v hv; rw [hone] at hv; simpa using hv
    · simp at h

end Mentat
