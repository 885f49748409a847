import Verif.Proofs.NoPanic
/- Which errors the steps of a transaction can give: only the two checks give their errors. -/
namespace Mentat

/-- `r` is not the error of the type check or of the cardinality check. -/
def Res.NotCheck {α : Type u} (r : Res α) : Prop :=
  r ≠ .err .typeDisagreements ∧ r ≠ .err .cardinalityConflicts

theorem Res.notCheck_ok {α : Type u} {a : α} : (Res.ok a).NotCheck := by simp [Res.NotCheck]
theorem Res.notCheck_panic {α : Type u} : (Res.panic : Res α).NotCheck := by simp [Res.NotCheck]

theorem Res.bind_err {α β : Type u} {x : Res α} {f : α → Res β} {e : Err} :
    (x >>= f) = .err e ↔ x = .err e ∨ ∃ a, x = .ok a ∧ f a = .err e := by
  cases x <;> simp

theorem Res.notCheck_bind {α β : Type u} {x : Res α} {f : α → Res β} (hx : x.NotCheck)
    (hf : ∀ a, x = .ok a → (f a).NotCheck) : (x >>= f).NotCheck := by
  cases x with
  | ok a => exact hf a rfl
  | err e => simpa [Res.NotCheck] using hx
  | panic => simp [Res.NotCheck]

theorem Res.NotCheck.cast {α β : Type u} {e : Err} (h : (Res.err e : Res α).NotCheck) :
    (Res.err e : Res β).NotCheck := by simpa [Res.NotCheck] using h

theorem getOrInsertTxInstant_nc {s t tx now} : (getOrInsertTxInstant s t tx now).NotCheck := by
  unfold getOrInsertTxInstant
  simp only
  split
  · simp [Res.NotCheck]
  · split <;> simp [Res.NotCheck]

theorem apply_nc {st : Store} {tx qs act} : (st.apply tx qs act).NotCheck := by
  unfold Store.apply updateDatoms
  simp only
  split
  · simp [Res.NotCheck]
  · split
    · cases act <;> simp [Res.NotCheck]
    · rename_i h
      split at h
      · simp at h
      · cases h; simp [Res.NotCheck]
    · simp [Res.NotCheck]

theorem collectMeta_nc : ∀ {q as_ is}, (collectMeta q as_ is).NotCheck := by
  intro q
  induction q with
  | nil => intro as_ is; simp [collectMeta, Res.NotCheck]
  | cons x r ih =>
    intro as_ is
    obtain ⟨e, a, v, b⟩ := x
    unfold collectMeta
    split
    · split
      · exact ih
      · exact Res.notCheck_panic
    · exact ih

theorem schemaRetractions_go_nc {ir suspects} : ∀ {l am f},
    (schemaRetractions.go ir suspects l am f).NotCheck := by
  intro l
  induction l with
  | nil => intro am f; simp [schemaRetractions.go, Res.NotCheck]
  | cons x r ih =>
    intro am f
    obtain ⟨e, a, v⟩ := x
    unfold schemaRetractions.go
    simp only
    split
    · split
      · exact ih
      · simp [Res.NotCheck]
    · exact ih

theorem retractBuilder_nc {b a v} : (retractBuilder b a v).NotCheck := by
  unfold retractBuilder
  repeat' split
  all_goals simp [Res.NotCheck]

theorem assertBuilder_nc {b a v} : (assertBuilder b a v).NotCheck := by
  unfold assertBuilder
  repeat' split
  all_goals simp [Res.NotCheck]

theorem retractAll_nc {am} : ∀ {l bs}, (retractAll am l bs).NotCheck := by
  intro l
  induction l with
  | nil => intro bs; simp [retractAll, Res.NotCheck]
  | cons x r ih =>
    intro bs
    obtain ⟨e, a, v⟩ := x
    unfold retractAll
    simp only
    split
    · exact ih
    · rename_i h; exact (h ▸ retractBuilder_nc).cast
    · exact Res.notCheck_panic

theorem assertAll_nc : ∀ {l bs}, (assertAll l bs).NotCheck := by
  intro l
  induction l with
  | nil => intro bs; simp [assertAll, Res.NotCheck]
  | cons x r ih =>
    intro bs
    obtain ⟨e, a, v⟩ := x
    unfold assertAll
    simp only
    split
    · exact ih
    · rename_i h; exact (h ▸ assertBuilder_nc).cast
    · exact Res.notCheck_panic

theorem applyBuilders_nc : ∀ {l am rep}, (applyBuilders l am rep).NotCheck := by
  intro l
  induction l with
  | nil => intro am rep; simp [applyBuilders, Res.NotCheck]
  | cons x r ih =>
    intro am rep
    obtain ⟨e, b⟩ := x
    unfold applyBuilders
    split
    · split
      · exact ih
      · simp [Res.NotCheck]
    · split
      · simp [Res.NotCheck]
      · exact ih

theorem updateSchema_nc {s q} : (updateSchema s q).NotCheck := by
  unfold updateSchema
  refine Res.notCheck_bind collectMeta_nc fun _ _ => ?_
  refine Res.notCheck_bind schemaRetractions_go_nc fun _ _ => ?_
  refine Res.notCheck_bind ?_ fun _ _ => Res.notCheck_ok
  unfold updateAttributeMap
  refine Res.notCheck_bind retractAll_nc fun _ _ => ?_
  exact Res.notCheck_bind assertAll_nc fun _ _ => applyBuilders_nc

theorem applyAlterations_nc {at_ e} : ∀ {xs rows}, (applyAlterations at_ e xs rows).NotCheck := by
  intro xs
  induction xs with
  | nil => intro rows; simp [applyAlterations, Res.NotCheck]
  | cons x r ih =>
    intro rows
    unfold applyAlterations
    split
    · exact ih
    · rename_i h
      have : (applyAlteration at_ e rows x).NotCheck := by
        cases x with
        | unique =>
          simp only [applyAlteration]
          split
          · simp [Res.NotCheck]
          · split <;> simp [Res.NotCheck]
        | cardinality => simp only [applyAlteration]; split <;> simp [Res.NotCheck]
        | _ => simp [applyAlteration, Res.NotCheck]
      exact (h ▸ this).cast
    · exact Res.notCheck_panic

theorem applyAllAlterations_nc {s} : ∀ {alt rows}, (applyAllAlterations s alt rows).NotCheck := by
  intro alt
  induction alt with
  | nil => intro rows; simp [applyAllAlterations, Res.NotCheck]
  | cons x r ih =>
    intro rows
    obtain ⟨e, xs⟩ := x
    unfold applyAllAlterations
    split
    · simp [Res.NotCheck]
    · split
      · exact ih
      · rename_i h; exact (h ▸ applyAlterations_nc).cast
      · exact Res.notCheck_panic

theorem applyMetadata_nc {s rows views lr} : (applyMetadata s rows views lr).NotCheck := by
  unfold applyMetadata
  refine Res.notCheck_bind updateSchema_nc fun _ _ => ?_
  simp only
  split
  · refine Res.notCheck_bind ?_ fun _ _ => Res.notCheck_ok
    unfold updateMetadata
    simp only
    split
    · simp [Res.NotCheck]
    · rename_i h; exact (h ▸ applyAllAlterations_nc).cast
    · exact Res.notCheck_panic
  · exact Res.notCheck_ok

/-- The rest of `applyTrie`, after the checks, does not give their errors. -/
theorem applyTrie_check {db sfm tx now t act} :
    (applyTrie db sfm tx now t act = .err .typeDisagreements ↔ typeDisagreements db.schema t ≠ []) ∧
    (applyTrie db sfm tx now t act = .err .cardinalityConflicts ↔
      typeDisagreements db.schema t = [] ∧ cardinalityConflicts db.schema t ≠ []) := by
  unfold applyTrie
  by_cases h1 : typeDisagreements db.schema t = []
  · by_cases h2 : cardinalityConflicts db.schema t = []
    · simp only [Res.require, h1, h2, if_true, Res.ok_bind]
      have : (getOrInsertTxInstant db.schema t tx now >>= fun (x : Int × Trie) =>
          db.store.apply tx (reducedOf db.schema x.2) act >>= fun (y : Store × List LogRow) =>
            if ((reducedOf db.schema x.2).any fun q => mightUpdateMetadata q.a) = true then
              applyMetadata sfm y.1.rows db.views y.2 >>= fun z =>
                (pure (z.1, { y.1 with rows := z.2.1 }, z.2.2, x.1) : Res (Schema × Store × Views × Int))
            else pure (sfm, y.1, db.views, x.1)).NotCheck := by
        refine Res.notCheck_bind getOrInsertTxInstant_nc fun _ _ => ?_
        refine Res.notCheck_bind apply_nc fun _ _ => ?_
        split
        · exact Res.notCheck_bind applyMetadata_nc fun _ _ => Res.notCheck_ok
        · exact Res.notCheck_ok
      simp only [ne_eq, not_true_eq_false, and_false, iff_false]
      exact this
    · simp [Res.require, h1, h2]
  · simp [Res.require, h1]

end Mentat
