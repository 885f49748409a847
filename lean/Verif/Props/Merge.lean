import Verif.Model.Merge
import Verif.Props.Entities
import Verif.Props.SyncStore
import Verif.Props.Timelines
/- C61: merging diverged stores. -/
namespace Mentat.Sync

theorem mem_rebaseParts {db : Db} {parts : List TxPart} {ps : List TxPart} {es}
    (h : rebaseParts db parts ps = .ok es) (x : TxEntity TypedValue) :
    x ∈ es ↔ ∃ p ∈ ps, rebasePart db parts p = .ok (some x) := by
  induction ps generalizing es with
  | nil => cases h; simp
  | cons p r ih =>
    simp only [rebaseParts, Res.bind_ok_iff] at h
    obtain ⟨o, ho, es', hes, h⟩ := h
    cases h
    rw [List.mem_append, ih hes]
    constructor
    · rintro (h | ⟨q, hq, h⟩)
      · cases o with
        | none => cases h
        | some y =>
          simp only [Option.toList, List.mem_singleton] at h
          subst h
          exact ⟨p, by simp, ho⟩
      · exact ⟨q, by simp [hq], h⟩
    · rintro ⟨q, hq, h⟩
      rcases List.mem_cons.1 hq with rfl | hq
      · rw [ho] at h; cases h; simp
      · exact Or.inr ⟨q, hq, h⟩

/-- What a datom contributes. -/
theorem rebasePart_ok {db : Db} {parts : List TxPart} {p : TxPart} {x}
    (h : rebasePart db parts p = .ok (some x)) :
    ∃ e, x = .addOrRetract (if p.added then .add else .retract) e (.entid p.a) (.atom p.v) ∧
      (p.added = true → p ∈ parts → e = .tempId (.external (entityName p.e))) := by
  unfold rebasePart at h
  split at h
  · cases h
  · rename_i ha
    split at h
    · cases h; exact ⟨_, rfl, fun _ _ => rfl⟩
    · rename_i hw
      split at h
      · rename_i hadd
        cases h
        refine ⟨_, by rw [hadd]; rfl, ?_⟩
        intro _ hp
        exfalso
        apply hw
        unfold willAllocate
        rw [List.any_eq_true]
        exact ⟨p, hp, by simp [hadd, ha]⟩
      · rename_i hadd
        split at h
        · cases h
        · split at h
          · cases h
          · split at h
            · cases h
              refine ⟨_, by rw [if_neg hadd], fun h => absurd h hadd⟩
            · cases h

theorem flattenAll_atoms (es : List (TxEntity TypedValue))
    (h : ∀ x ∈ es, ∃ op e a v, x = .addOrRetract op e (.entid a) (.atom v)) (k : Nat) : (flattenAll k es).1 = es := by
  induction es generalizing k with
  | nil => rfl
  | cons x r ih =>
    obtain ⟨op, e, a, v, rfl⟩ := h x (by simp)
    simp only [flattenAll, flattenEntity]
    have : flatten op e (.entid a) k (ValuePlace.atom v) = ([TxEntity.addOrRetract op e (.entid a) (.atom v)], k) := by
      simp [flatten]
    rw [this]
    simp only [List.singleton_append, ih (fun x hx => h x (List.mem_cons_of_mem _ hx))]

/-- C61, in part, for one local transaction rebased on the incoming ones: there is one entity for each
local entity about which it asserts something, and each assertion holds of that entity, except an
identity assertion when the entity was found in the store, and an assertion of a cardinality-one
attribute from which the transaction also retracts (see `C20_fails`, `C20_fails_upsert`).
Missing: the entity is not the same for two transactions, nor the one it was before the divergence
(`C61_fails_split`); a reference keeps its number (`C61_fails_ref`); retractions are lost
(`C61_fails_replace`). -/
theorem C61_rebase_partial {db db' : Db} {now : Int} {parts : List TxPart}
    (h : rebaseOne db now parts = .ok (db', true))
    (ht : ∀ p ∈ parts, ∀ at_, db.schema.attr p.a = some at_ → at_.valueType = p.v.valueType) :
    ∃ σ : Entid → Entid, ∀ p ∈ parts, p.added = true → p.a ≠ DB_TX_INSTANT →
      (IsIdentity db.schema p.a → ∀ a v, ¬ Has db.store.rows (σ p.e) a v) →
      (∀ at_, db.schema.attr p.a = some at_ → at_.multival = false →
        ∀ q ∈ parts, q.added = false → q.a ≠ p.a) →
      Has db'.store.rows (σ p.e) p.a p.v := by
  unfold rebaseOne at h
  rw [Res.bind_ok_iff] at h
  obtain ⟨might, -, h⟩ := h
  rw [Res.bind_ok_iff] at h
  obtain ⟨es, hes, h⟩ := h
  split at h
  · cases h
  · rw [Res.bind_ok_iff] at h
    obtain ⟨⟨db1, rep⟩, htx, h⟩ := h
    have hdb : db1 = db' := by
      dsimp only at h
      split at h
      · cases h
      · split at h
        · cases h
        · cases h; rfl
    subst hdb
    have hshape : ∀ x ∈ es, ∃ op e a v, x = .addOrRetract op e (.entid a) (.atom v) := by
      intro x hx
      obtain ⟨p, -, hp⟩ := (mem_rebaseParts hes x).1 hx
      obtain ⟨e, he, -⟩ := rebasePart_ok hp
      exact ⟨_, e, p.a, p.v, he⟩
    obtain ⟨-, s, terms, hs, hres, htt⟩ := transactEntities_ok.1 htx
    have hflat := flattenAll_atoms es hshape 0
    have hm : List.Forall₂ (Means (startEnv db)) es s.terms := by
      obtain ⟨-, u, hu, h2, -, -⟩ := (C30_flat (startEnv db) es s.terms s.tempIds s.lookupRefs).1
        ⟨s, hs, rfl, rfl, rfl⟩
      rw [stage1_eq] at hu
      obtain ⟨ts', hts, had⟩ := run_means (C30_is_flat es) hu
      have h3 := had.terms
      simp only [List.nil_append] at h3
      rw [h2] at h3
      rw [h3]
      rw [hflat, map_codeOp] at hts
      · exact hts
      · intro e a v hx
        obtain ⟨op, e', a', v', hx⟩ := hshape _ hx
        cases hx; rfl
    have hr := C29_resolves hres
    obtain ⟨σ, -, hden, -, hadd, -⟩ := C20_effect_partial htt
    refine ⟨fun e => (AMap.get σ (.external (entityName e))).getD 0, ?_⟩
    intro p hp hadded hinst hident hone
    -- the entity in the builder
    obtain ⟨x, hx⟩ : ∃ x, rebasePart db parts p = .ok (some x) := by
      unfold rebasePart
      rw [if_neg hinst]
      have : willAllocate parts p.e = true := by
        unfold willAllocate
        rw [List.any_eq_true]
        exact ⟨p, hp, by simp [hadded, hinst]⟩
      rw [if_pos this]
      exact ⟨_, rfl⟩
    obtain ⟨e, rfl, he⟩ := rebasePart_ok hx
    have he := he hadded hp
    subst he
    rw [hadded] at hx
    simp only [if_true] at hx
    have hxm := (mem_rebaseParts hes _).2 ⟨p, hp, hx⟩
    -- its meaning
    have means : ∀ x ∈ es, ∃ t ∈ s.terms, Means (startEnv db) x t := by
      intro x hx
      obtain ⟨i, hi, rfl⟩ := List.mem_iff_getElem.1 hx
      have hlen := hm.length_eq
      exact ⟨s.terms[i], List.getElem_mem _, (List.forall₂_iff_get.1 hm).2 i hi (by omega)⟩
    have meant : ∀ t ∈ s.terms, ∃ x ∈ es, Means (startEnv db) x t := by
      intro x hx
      obtain ⟨i, hi, rfl⟩ := List.mem_iff_getElem.1 hx
      have hlen := hm.length_eq
      exact ⟨es[i], List.getElem_mem _, (List.forall₂_iff_get.1 hm).2 i (by omega) hi⟩
    have resolved : ∀ t ∈ s.terms, ∃ y ∈ terms, Resolved db.store.rows t y := by
      intro x hx
      obtain ⟨i, hi, rfl⟩ := List.mem_iff_getElem.1 hx
      have hlen := hr.length_eq
      exact ⟨terms[i], List.getElem_mem _, (List.forall₂_iff_get.1 hr).2 i hi (by omega)⟩
    have resolvedOf : ∀ y ∈ terms, ∃ t ∈ s.terms, Resolved db.store.rows t y := by
      intro x hx
      obtain ⟨i, hi, rfl⟩ := List.mem_iff_getElem.1 hx
      have hlen := hr.length_eq
      exact ⟨s.terms[i], List.getElem_mem _, (List.forall₂_iff_get.1 hr).2 i (by omega) hi⟩
    obtain ⟨t, htm, hmean⟩ := means _ hxm
    obtain ⟨y, hy, hres1⟩ := resolved t htm
    have hterm : t = ⟨.add, .inr (.tempId (.external (entityName p.e))), p.a, .inl p.v⟩ := by
      obtain ⟨top, te, ta, tv⟩ := t
      obtain ⟨ho, hmean⟩ := hmean
      rcases hmean with ⟨-, at_, h1, h2, h3, h4⟩ | ⟨fa, at_, x, hu, -⟩
      · simp only [Names] at h1
        dsimp only at *
        subst h1
        have hty := ht p hp at_ h2
        have hv : tv = .inl p.v := by
          rcases h4 with ⟨h5, t', h6, -⟩ | ⟨-, w, h5, rfl⟩
          · rw [hty] at h5
            cases hv : p.v <;> rw [hv] at h5 h6 <;> simp [TypedValue.valueType, TransactableValue.asTempid] at h5 h6
          · simp only [TransactableValue.intoTypedValue] at h5
            rw [if_pos hty.symm] at h5; cases h5; rfl
        rw [ho, h3, hv]
      · obtain ⟨ns, n, hh, -⟩ := hu; cases hh
    subst hterm
    have hyt : y = ⟨.add, .inr (.external (entityName p.e)), p.a, .inl p.v⟩ := by
      obtain ⟨yo, ye, ya, yv⟩ := y
      obtain ⟨h1, h2, h3, h4⟩ := hres1
      dsimp only at *
      subst h1 h2
      rw [show ye = .inr (.external (entityName p.e)) from h3, show yv = .inl p.v from h4]
    subst hyt
    obtain ⟨z, hz⟩ := hden _ hy
    obtain ⟨zo, ze, za, zv⟩ := z
    have hz' := hz
    obtain ⟨h1, h2, h3, h4⟩ := hz'
    simp only [DenotesE, DenotesV] at h1 h2 h3 h4
    subst h1 h2 h4
    have := hadd _ hy _ hz rfl ?_ ?_
    · simpa [h3] using this
    · intro t' ht' hid hup
      dsimp only at ht' hid
      cases ht'
      obtain ⟨n, a, v, hn, hh⟩ := hup
      refine hident hid a v ?_
      simpa [hn] using hh
    · intro at_ hat hmv y' hy' z' hz1 hz2 hz3
      dsimp only at hat hz3
      obtain ⟨t', ht', hr'⟩ := resolvedOf y' hy'
      obtain ⟨x', hx', hm'⟩ := meant t' ht'
      obtain ⟨q, hq, hqx⟩ := (mem_rebaseParts hes x').1 hx'
      obtain ⟨e', rfl, -⟩ := rebasePart_ok hqx
      have hop : t'.op = .retract := by rw [← hr'.1, ← hz1.1]; exact hz2
      have hqa : q.added = false := by
        cases hqa : q.added with
        | false => rfl
        | true =>
          have := hm'.1
          rw [hop, hqa] at this; cases this
      have ha' : t'.a = q.a := by
        rcases hm'.2 with ⟨-, at1, h1, -⟩ | ⟨fa, at1, x, hu, -⟩
        · exact h1
        · obtain ⟨ns, n, hh, -⟩ := hu; cases hh
      refine hone at_ hat hmv q hq hqa ?_
      rw [← ha', ← hr'.2.1, ← hz1.2.1]
      exact hz3.2

/-! ### Two stores that diverged after a shared transaction -/

/-- Upload what `a` has after the transaction `shared`, and merge it into `b`. -/
def mergeVia (shared : Entid) (a b : Db) : Res (Db × Report) :=
  (fastForwardRemote (fun n => n + 8) { db := a } (some shared) { head := 7, txs := [⟨7, 0, []⟩] } 7).bind
    fun (_, r) =>
  (r.after 7).bind fun incoming =>
  (localTxs b.store.log (some shared)).bind fun locals =>
  (merge { db := b, remoteHead := 7 } 0 incoming locals).bind fun (l, rep) => .ok (l.db, rep)

/-- Two transactions on the same store. -/
def diverged (root : Db) (ta tb : Mentat.Tx) : Option (Db × Db) :=
  match stepTo root ta, stepTo root tb with
  | some a, some b => some (a, b)
  | _, _ => none

theorem diverged_step {root : Db} {ta tb : Mentat.Tx} {a b : Db} (h : diverged root ta tb = some (a, b)) :
    Step root a ∧ Step root b := by
  unfold diverged at h
  split at h
  · rename_i ha hb
    cases h
    exact ⟨stepTo_step ha, stepTo_step hb⟩
  · cases h

/-- What the other store does: a new entity (65540). -/
def otherTx : Mentat.Tx := ([addT "n" xOne (str "theirs")], [tid "n"])

/-- A local transaction that asserts something about two new entities, one of them with an identity that
the other store made too. -/
theorem C61_example : ∃ root a b m rep, Reach root ∧ Step root a ∧ Step root b ∧
    mergeVia (TX0 + 2) a b = .ok (m, rep) ∧ Has m.store.rows 65540 xOne (str "theirs") ∧
    Has m.store.rows 65541 xOne (str "mine") ∧ Has m.store.rows 65540 xMany (.long 7) := by
  obtain ⟨root, h, hp⟩ := reachKept_of_setup (txs := [dataTx]) (p := fun root =>
    match diverged root ([addT "n" xOne (str "theirs"), addT "n" xId (str "z")], [tid "n"])
        ([addT "n" xOne (str "mine"), addT "u" xId (str "z"), addT "u" xMany (.long 7)], [tid "n", tid "u"]) with
    | some (a, b) => match mergeVia (TX0 + 2) a b with
      | .ok (m, _) => hasB m 65540 xOne (str "theirs") && hasB m 65541 xOne (str "mine") && hasB m 65540 xMany (.long 7)
      | _ => false
    | none => false) (by decide +kernel)
  split at hp
  · rename_i a b hd
    split at hp
    · rename_i m rep hm
      simp only [Bool.and_eq_true, hasB_iff] at hp
      exact ⟨root, a, b, m, rep, h.reach, (diverged_step hd).1, (diverged_step hd).2, hm, hp.1.1, hp.1.2, hp.2⟩
    · cases hp
  · cases hp

/-- C61 fails: a local assertion about an entity that both stores had before they diverged is moved to a
new entity (syncer.rs:496-518 makes a tempid of every entity asserted about). -/
theorem C61_fails_split : ∃ root a b m rep, Reach root ∧ Step root a ∧ Step root b ∧
    mergeVia (TX0 + 2) a b = .ok (m, rep) ∧ (∃ v, Has root.store.rows e1 xMany v) ∧
    Has b.store.rows e1 xMany (.long 9) ∧ ¬ Has m.store.rows e1 xMany (.long 9) ∧
    Has m.store.rows 65541 xMany (.long 9) := by
  obtain ⟨root, h, hp⟩ := reachKept_of_setup (txs := [dataTx]) (p := fun root =>
    hasB root e1 xMany (.long 1) &&
    match diverged root otherTx ([addE e1 xMany (.long 9)], []) with
    | some (a, b) => match mergeVia (TX0 + 2) a b with
      | .ok (m, _) => hasB b e1 xMany (.long 9) && !hasB m e1 xMany (.long 9) && hasB m 65541 xMany (.long 9)
      | _ => false
    | none => false) (by decide +kernel)
  rw [Bool.and_eq_true] at hp
  obtain ⟨hroot, hp⟩ := hp
  split at hp
  · rename_i a b hd
    split at hp
    · rename_i m rep hm
      simp only [Bool.and_eq_true, hasB_iff] at hp
      refine ⟨root, a, b, m, rep, h.reach, (diverged_step hd).1, (diverged_step hd).2, hm, ⟨_, hasB_iff.1 hroot⟩,
        hp.1.1, ?_, hp.2⟩
      intro hn
      rw [hasB_iff.2 hn] at hp
      simp at hp
    · cases hp
  · cases hp

/-- C61 fails: a local reference keeps its number while the entity it points to is renumbered, so it
ends up pointing to an entity of the other store (syncer.rs:560 leaves this as a TODO).  65539 is a
reference attribute. -/
theorem C61_fails_ref : ∃ root a b m rep n, Reach root ∧ Step root a ∧ Step root b ∧
    mergeVia (TX0 + 2) a b = .ok (m, rep) ∧
    -- locally "from" points to the entity that is "mine"
    (∃ f g, Has b.store.rows f xOne (str "from") ∧ Has b.store.rows f 65539 (.ref g) ∧
      Has b.store.rows g xOne (str "mine")) ∧
    -- after the merge it points to the entity that is "theirs"
    Has m.store.rows n xOne (str "from") ∧ Has m.store.rows n 65539 (.ref 65540) ∧
    Has m.store.rows 65540 xOne (str "theirs") ∧ ¬ Has m.store.rows 65540 xOne (str "mine") := by
  obtain ⟨root, h, hp⟩ := reachKept_of_setup
    (txs := [(install "ref" DB_TYPE_REF DB_CARDINALITY_ONE, [tid "ref"])]) (p := fun root =>
    match diverged root otherTx ([addT "a" xOne (str "mine"), addT "b" xOne (str "from"), addTT "b" 65539 "a"],
        [tid "a", tid "b"]) with
    | some (a, b) => match mergeVia (TX0 + 2) a b with
      | .ok (m, _) => (hasB b 65541 xOne (str "from") && hasB b 65541 65539 (.ref 65540) && hasB b 65540 xOne (str "mine")) &&
          (hasB m 65542 xOne (str "from") && hasB m 65542 65539 (.ref 65540) &&
           hasB m 65540 xOne (str "theirs") && !hasB m 65540 xOne (str "mine"))
      | _ => false
    | none => false) (by decide +kernel)
  split at hp
  · rename_i a b hd
    split at hp
    · rename_i m rep hm
      simp only [Bool.and_eq_true, hasB_iff] at hp
      obtain ⟨⟨⟨b1, b2⟩, b3⟩, ⟨⟨m1, m2⟩, m3⟩, m4⟩ := hp
      refine ⟨root, a, b, m, rep, 65542, h.reach, (diverged_step hd).1, (diverged_step hd).2, hm,
        ⟨_, _, b1, b2, b3⟩, m1, m2, m3, ?_⟩
      intro hn
      rw [hasB_iff.2 hn] at m4
      cases m4
    · cases hp
  · cases hp

/-- C61 fails: when a local transaction replaced a value, the merged store has the old value again, and
the new one is about a new entity. -/
theorem C61_fails_replace : ∃ root a b m rep, Reach root ∧ Step root a ∧ Step root b ∧
    mergeVia (TX0 + 2) a b = .ok (m, rep) ∧ ¬ Has b.store.rows e1 xOne (str "a") ∧
    ¬ Has a.store.rows e1 xOne (str "new") ∧ Has b.store.rows e1 xOne (str "new") ∧
    Has m.store.rows e1 xOne (str "a") ∧ Has m.store.rows 65541 xOne (str "new") := by
  obtain ⟨root, h, hp⟩ := reachKept_of_setup (txs := [dataTx]) (p := fun root =>
    match diverged root otherTx ([addE e1 xOne (str "new")], []) with
    | some (a, b) => match mergeVia (TX0 + 2) a b with
      | .ok (m, _) => !hasB b e1 xOne (str "a") && !hasB a e1 xOne (str "new") && hasB b e1 xOne (str "new") &&
          hasB m e1 xOne (str "a") && hasB m 65541 xOne (str "new")
      | _ => false
    | none => false) (by decide +kernel)
  split at hp
  · rename_i a b hd
    split at hp
    · rename_i m rep hm
      simp only [Bool.and_eq_true, hasB_iff, Bool.not_eq_true', ← Bool.not_eq_true] at hp
      obtain ⟨⟨⟨⟨b1, a1⟩, b2⟩, m1⟩, m2⟩ := hp
      exact ⟨root, a, b, m, rep, h.reach, (diverged_step hd).1, (diverged_step hd).2, hm, b1, a1, b2, m1, m2⟩
    · cases hp
  · cases hp

end Mentat.Sync
