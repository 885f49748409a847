import Verif.Model.Session
import Verif.Proofs.Effect
/- Facts about a run of the transactor with what it leaves behind. -/
namespace Mentat

theorem applyAlterationsLeft_ok {at_ e xs rows rows'}
    (h : applyAlterations at_ e xs rows = .ok rows') : applyAlterationsLeft at_ e xs rows = rows' := by
  induction xs generalizing rows with
  | nil => simpa [applyAlterations, applyAlterationsLeft] using h
  | cons x xs ih =>
    rw [applyAlterations] at h
    rw [applyAlterationsLeft]
    cases ha : applyAlteration at_ e rows x with
    | ok r => rw [ha] at h; exact ih h
    | err er => rw [ha] at h; simp at h
    | panic => rw [ha] at h; simp at h

theorem applyAllAlterationsLeft_ok {s m rows rows'}
    (h : applyAllAlterations s m rows = .ok rows') : applyAllAlterationsLeft s m rows = rows' := by
  induction m generalizing rows with
  | nil => simpa [applyAllAlterations, applyAllAlterationsLeft] using h
  | cons x m ih =>
    obtain ⟨e, xs⟩ := x
    rw [applyAllAlterations] at h
    rw [applyAllAlterationsLeft]
    cases hs : s.attr e with
    | none => rw [hs] at h; simp at h
    | some at_ =>
      rw [hs] at h
      simp only at h ⊢
      cases ha : applyAlterations at_ e xs rows with
      | ok r => rw [ha] at h; exact ih h
      | err er => rw [ha] at h; simp at h
      | panic => rw [ha] at h; simp at h

theorem applyMetadataLeft_ok {s rows views lr s' rows' views'}
    (h : applyMetadata s rows views lr = .ok (s', rows', views')) :
    applyMetadataLeft s rows views lr = (rows', views') := by
  unfold applyMetadata at h
  rw [Res.bind_eq_ok] at h
  obtain ⟨⟨s1, rep⟩, h1, h⟩ := h
  unfold applyMetadataLeft
  rw [h1]
  simp only at h ⊢
  split at h
  · rename_i hs
    rw [if_pos hs]
    rw [Res.bind_eq_ok] at h
    obtain ⟨⟨r2, v2⟩, h2, h⟩ := h
    simp only [Res.pure_eq, Res.ok.injEq, Prod.mk.injEq] at h
    obtain ⟨-, rfl, rfl⟩ := h
    unfold updateMetadata at h2
    unfold updateMetadataLeft
    simp only at h2 ⊢
    cases ha : applyAllAlterations s1 rep.altered rows with
    | ok r =>
      rw [ha] at h2
      simp only [Res.ok.injEq, Prod.mk.injEq] at h2
      obtain ⟨rfl, rfl⟩ := h2
      rw [applyAllAlterationsLeft_ok ha]
    | err er => rw [ha] at h2; simp at h2
    | panic => rw [ha] at h2; simp at h2
  · rename_i hs
    rw [if_neg hs]
    simp only [Res.pure_eq, Res.ok.injEq, Prod.mk.injEq] at h
    rw [h.2.1, h.2.2]

/-- A successful run leaves the tables of its result, has shown the watchers exactly the queue, and
has called `done`. -/
theorem transactRun_ok {db : Db} {now terms ids db' rep}
    (T : TxTrace db db.schema now terms ids .materializeAndCommit db' rep)
    (h : transactTerms db now terms ids = .ok (db', rep)) :
    transactRun db now terms ids = ⟨.ok (db', rep), db'.store, db'.views,
      shownOf (reducedOf db.schema T.t), some rep.txId⟩ := by
  unfold transactRun
  rw [h, T.alloc]
  simp only
  rw [T.stage3]
  simp only
  rw [T.trie]
  simp only
  unfold applyTrieRun
  rw [if_neg (by simp [T.typesOk, T.cardsOk]), T.instant]
  simp only
  rw [T.applied]
  simp only
  have hst : ∀ r, db'.store.rows = r → ({ T.store with rows := r } : Store) = db'.store := by
    intro r hr
    rw [← hr]
    show (⟨db'.store.rows, T.store.log⟩ : Store) = _
    rw [← T.log]
  rcases T.md with ⟨h1, q, hq, hm⟩ | ⟨h1, h2, h3, hn⟩
  · rw [if_pos (by rw [List.any_eq_true]; exact ⟨q, hq, hm⟩), applyMetadataLeft_ok h1, hst _ rfl]
  · rw [if_neg (by
      rw [List.any_eq_true]
      rintro ⟨q, hq, hm⟩
      rw [hn q hq] at hm; simp at hm)]
    have : T.store = db'.store := by
      have := hst _ h2
      cases hT : T.store
      rw [hT] at this
      exact this
    rw [this, h3]

theorem transactRun_result (db : Db) (now terms ids) :
    (transactRun db now terms ids).result = transactTerms db now terms ids := by
  unfold transactRun
  simp only
  split
  · split
    · split
      · unfold applyTrieRun
        split
        · rfl
        · split
          · simp only
            split
            · split <;> rfl
            · rfl
          · rfl
      · rfl
    · rfl
  · rfl

end Mentat
