import Verif.Proofs.Errors
import Verif.Proofs.Session
/- Which errors the steps after the checks can give, and what a failed run leaves. -/
namespace Mentat

/-- `r` is none of the errors given before the metadata step. -/
def Res.Late {α : Type u} (r : Res α) : Prop :=
  r ≠ .err .typeDisagreements ∧ r ≠ .err .cardinalityConflicts ∧ r ≠ .err .conflictingUpserts ∧
    r ≠ .err .notYetImplemented ∧ r ≠ .err .sqlConstraint

theorem Res.late_ok {α : Type u} {a : α} : (Res.ok a).Late := by simp [Res.Late]
theorem Res.late_panic {α : Type u} : (Res.panic : Res α).Late := by simp [Res.Late]

theorem Res.late_bind {α β : Type u} {x : Res α} {f : α → Res β} (hx : x.Late)
    (hf : ∀ a, x = .ok a → (f a).Late) : (x >>= f).Late := by
  cases x with
  | ok a => exact hf a rfl
  | err e => simpa [Res.Late] using hx
  | panic => simp [Res.Late]

theorem Res.Late.cast {α β : Type u} {e : Err} (h : (Res.err e : Res α).Late) :
    (Res.err e : Res β).Late := by simpa [Res.Late] using h

theorem collectMeta_late : ∀ {q as_ is}, (collectMeta q as_ is).Late := by
  intro q
  induction q with
  | nil => intro as_ is; simp [collectMeta, Res.Late]
  | cons x r ih =>
    intro as_ is
    obtain ⟨e, a, v, b⟩ := x
    unfold collectMeta
    split
    · split
      · exact ih
      · exact Res.late_panic
    · exact ih

theorem schemaRetractions_go_late {ir suspects} : ∀ {l am f},
    (schemaRetractions.go ir suspects l am f).Late := by
  intro l
  induction l with
  | nil => intro am f; simp [schemaRetractions.go, Res.Late]
  | cons x r ih =>
    intro am f
    obtain ⟨e, a, v⟩ := x
    unfold schemaRetractions.go
    simp only
    split
    · split
      · exact ih
      · simp [Res.Late]
    · exact ih

theorem retractBuilder_late {b a v} : (retractBuilder b a v).Late := by
  unfold retractBuilder
  repeat' split
  all_goals simp [Res.Late]

theorem assertBuilder_late {b a v} : (assertBuilder b a v).Late := by
  unfold assertBuilder
  repeat' split
  all_goals simp [Res.Late]

theorem retractAll_late {am} : ∀ {l bs}, (retractAll am l bs).Late := by
  intro l
  induction l with
  | nil => intro bs; simp [retractAll, Res.Late]
  | cons x r ih =>
    intro bs
    obtain ⟨e, a, v⟩ := x
    unfold retractAll
    simp only
    split
    · exact ih
    · rename_i h; exact (h ▸ retractBuilder_late).cast
    · exact Res.late_panic

theorem assertAll_late : ∀ {l bs}, (assertAll l bs).Late := by
  intro l
  induction l with
  | nil => intro bs; simp [assertAll, Res.Late]
  | cons x r ih =>
    intro bs
    obtain ⟨e, a, v⟩ := x
    unfold assertAll
    simp only
    split
    · exact ih
    · rename_i h; exact (h ▸ assertBuilder_late).cast
    · exact Res.late_panic

theorem applyBuilders_late : ∀ {l am rep}, (applyBuilders l am rep).Late := by
  intro l
  induction l with
  | nil => intro am rep; simp [applyBuilders, Res.Late]
  | cons x r ih =>
    intro am rep
    obtain ⟨e, b⟩ := x
    unfold applyBuilders
    split
    · split
      · exact ih
      · simp [Res.Late]
    · split
      · simp [Res.Late]
      · exact ih

theorem updateSchema_late {s q} : (updateSchema s q).Late := by
  unfold updateSchema
  refine Res.late_bind collectMeta_late fun _ _ => ?_
  refine Res.late_bind schemaRetractions_go_late fun _ _ => ?_
  refine Res.late_bind ?_ fun _ _ => Res.late_ok
  unfold updateAttributeMap
  refine Res.late_bind retractAll_late fun _ _ => ?_
  exact Res.late_bind assertAll_late fun _ _ => applyBuilders_late

theorem applyAlterations_late {at_ e} : ∀ {xs rows}, (applyAlterations at_ e xs rows).Late := by
  intro xs
  induction xs with
  | nil => intro rows; simp [applyAlterations, Res.Late]
  | cons x r ih =>
    intro rows
    unfold applyAlterations
    split
    · exact ih
    · rename_i h
      have : (applyAlteration at_ e rows x).Late := by
        cases x with
        | unique =>
          simp only [applyAlteration]
          split
          · simp [Res.Late]
          · split <;> simp [Res.Late]
        | cardinality => simp only [applyAlteration]; split <;> simp [Res.Late]
        | _ => simp [applyAlteration, Res.Late]
      exact (h ▸ this).cast
    · exact Res.late_panic

theorem applyAllAlterations_late {s} : ∀ {alt rows}, (applyAllAlterations s alt rows).Late := by
  intro alt
  induction alt with
  | nil => intro rows; simp [applyAllAlterations, Res.Late]
  | cons x r ih =>
    intro rows
    obtain ⟨e, xs⟩ := x
    unfold applyAllAlterations
    split
    · simp [Res.Late]
    · split
      · exact ih
      · rename_i h; exact (h ▸ applyAlterations_late).cast
      · exact Res.late_panic

theorem applyMetadata_late {s rows views lr} : (applyMetadata s rows views lr).Late := by
  unfold applyMetadata
  refine Res.late_bind updateSchema_late fun _ _ => ?_
  simp only
  split
  · refine Res.late_bind ?_ fun _ _ => Res.late_ok
    unfold updateMetadata
    simp only
    split
    · simp [Res.Late]
    · rename_i h; exact (h ▸ applyAllAlterations_late).cast
    · exact Res.late_panic
  · exact Res.late_ok


theorem apply_err {st : Store} {tx qs act e} (h : st.apply tx qs act = .err e) : e = .sqlConstraint := by
  unfold Store.apply updateDatoms at h
  simp only at h
  split at h
  · simp at h; exact h.symm
  · split at h
    · cases act <;> simp at h
    · rename_i h1
      split at h1
      · simp at h1
      · cases h1; simp at h; exact h.symm
    · simp at h

/-- The three ways to fail: before anything was written; the write of the datoms was refused (its
`DELETE` stays); or the metadata step failed after datoms and log were written. -/
theorem transactRun_err {db : Db} {now terms ids e} (h : transactTerms db now terms ids = .err e) :
    let r := transactRun db now terms ids
    (r.store = db.store ∧ r.views = db.views ∧ r.shown = [] ∧ r.done = none) ∨
    (e = .sqlConstraint ∧ r.store.log = db.store.log ∧ r.views = db.views ∧ r.done = none ∧
      ∃ qs, r.shown = shownOf qs ∧ r.store = db.store.applyLeft qs) ∨
    ((Res.err e : Res Unit).Late ∧ ∃ tx, r.done = some tx) := by
  intro r
  have hr : r = transactRun db now terms ids := rfl
  clear_value r
  unfold transactRun at hr
  unfold transactTerms transactTermsWith at h
  simp only at hr
  cases ha : db.parts.tx.allocate 1 with
  | err er => rw [ha] at hr; subst hr; exact Or.inl ⟨rfl, rfl, rfl, rfl⟩
  | panic => rw [ha] at hr; subst hr; exact Or.inl ⟨rfl, rfl, rfl, rfl⟩
  | ok x =>
    obtain ⟨tx, txPart⟩ := x
    rw [ha] at hr h
    simp only [Res.ok_bind] at hr h
    cases hs : resolveTempIds db.schema db.store db.parts.user terms ids with
    | err er => rw [hs] at hr; subst hr; exact Or.inl ⟨rfl, rfl, rfl, rfl⟩
    | panic => rw [hs] at hr; subst hr; exact Or.inl ⟨rfl, rfl, rfl, rfl⟩
    | ok s3 =>
      rw [hs] at hr h
      simp only [Res.ok_bind] at hr h
      cases ht : intoTrie db.schema s3.pops s3.inert with
      | err er => rw [ht] at hr; subst hr; exact Or.inl ⟨rfl, rfl, rfl, rfl⟩
      | panic => rw [ht] at hr; subst hr; exact Or.inl ⟨rfl, rfl, rfl, rfl⟩
      | ok t =>
        rw [ht] at hr h
        simp only [Res.ok_bind] at hr h
        rw [Res.bind_err] at h
        replace h := h.resolve_right (by rintro ⟨⟨_, _, _, _⟩, -, h⟩; simp at h)
        unfold applyTrieRun at hr
        by_cases hc : typeDisagreements db.schema t ≠ [] ∨ cardinalityConflicts db.schema t ≠ []
        · rw [if_pos hc] at hr; subst hr; exact Or.inl ⟨rfl, rfl, rfl, rfl⟩
        · rw [if_neg hc] at hr
          have h1 : typeDisagreements db.schema t = [] := Decidable.not_not.mp fun hh => hc (Or.inl hh)
          have h2 : cardinalityConflicts db.schema t = [] := Decidable.not_not.mp fun hh => hc (Or.inr hh)
          unfold applyTrie at h
          simp only [Res.require, h1, h2, if_true, Res.ok_bind] at h
          cases hg : getOrInsertTxInstant db.schema t tx now with
          | err er => rw [hg] at hr; subst hr; exact Or.inl ⟨rfl, rfl, rfl, rfl⟩
          | panic => rw [hg] at hr; subst hr; exact Or.inl ⟨rfl, rfl, rfl, rfl⟩
          | ok y =>
            obtain ⟨i, t1⟩ := y
            rw [hg] at hr h
            simp only [Res.ok_bind] at hr h
            cases hp : db.store.apply tx (reducedOf db.schema t1) .materializeAndCommit with
            | panic => rw [hp] at h; simp at h
            | err er =>
              rw [hp] at hr h
              simp only [Res.err_bind, Res.err.injEq] at h
              subst h
              refine Or.inr (Or.inl ⟨?_, ?_, ?_, ?_, reducedOf db.schema t1, ?_, ?_⟩)
              · exact apply_err hp
              · subst hr; unfold Store.applyLeft; simp only; split <;> rfl
              all_goals subst hr; rfl
            | ok z =>
              obtain ⟨st, lr⟩ := z
              rw [hp] at hr h
              simp only [Res.ok_bind] at hr h
              split at h
              · rename_i hm
                rw [if_pos hm] at hr
                rw [Res.bind_err] at h
                rcases h with h | ⟨a, -, h⟩
                · exact Or.inr (Or.inr ⟨(h ▸ applyMetadata_late (s := db.schema) (rows := st.rows)
                    (views := db.views) (lr := lr)).cast, tx, by subst hr; rfl⟩)
                · obtain ⟨_, _, _⟩ := a; simp at h
              · simp at h

end Mentat
