import Verif.Proofs.CacheInv
import Verif.Proofs.SessionRun
/- C37, C38, C39: the attribute caches. -/
namespace Mentat

/-! ### What the readers return, in terms of the slots -/

theorem getValue_iff {c : Caches} {s : Schema} {a e : Entid} {v : TypedValue} {at_ : Attribute}
    (hat : s.attr a = some at_) (hm : at_.multival = false) :
    c.getValue s a e = some v ↔ sSingle.holds (sSingle.entry c a) e v := by
  unfold Caches.getValue Slot.entry sSingle
  simp only [hat, hm, Bool.false_eq_true, if_false]
  cases AMap.get c.single a with
  | none => simp
  | some m =>
    simp only [Option.bind_some, Option.getD_some]
    cases AMap.get m e with
    | none => simp
    | some x => simp

theorem getValues_iff {c : Caches} {s : Schema} {a e : Entid} {v : TypedValue} {at_ : Attribute}
    (hat : s.attr a = some at_) (hm : at_.multival = true) :
    v ∈ (c.getValues s a e).getD [] ↔ sMulti.holds (sMulti.entry c a) e v := by
  unfold Caches.getValues Slot.entry sMulti
  simp only [hat, hm, if_true]
  cases AMap.get c.multi a with
  | none => simp
  | some m =>
    simp only [Option.bind_some, Option.getD_some]
    cases AMap.get m e with
    | none => simp
    | some x => simp

theorem getEntid_iff {c : Caches} {a e : Entid} {v : TypedValue} (hr : a ∈ c.reverse) :
    c.getEntid a v = some e ↔ sUnique.holds (sUnique.entry c a) e v := by
  unfold Caches.getEntid Slot.entry sUnique
  rw [if_pos hr]
  simp only
  cases AMap.get c.unique a with
  | none => simp
  | some m =>
    simp only [Option.bind_some, Option.getD_some]
    cases AMap.get m v with
    | none => simp
    | some x => simp

theorem getEntids_iff {c : Caches} {a e : Entid} {v : TypedValue} (hr : a ∈ c.reverse) :
    e ∈ (c.getEntids a v).getD [] ↔ sNonUnique.holds (sNonUnique.entry c a) e v := by
  unfold Caches.getEntids Slot.entry sNonUnique
  rw [if_pos hr]
  simp only
  cases AMap.get c.nonUnique a with
  | none => simp
  | some m =>
    simp only [Option.bind_some, Option.getD_some]
    cases AMap.get m v with
    | none => simp
    | some x => simp

/-! ### C37 -/

/-- The condition under which the single-valued cache follows the store. -/
def SingleOk (a : Entid) : TxCond := fun db db' shown =>
  SameShape a db db' shown ∧ ShownKept a db db' shown

/-- C37, cardinality one.  While `a` is cached, no transaction may change its shape, and what a
transaction asserts for `a` must hold afterwards (the exception is C20's: an assertion of the
current value next to a retraction of another value).  Then the cache of the connection answers
exactly what the store holds. -/
theorem C37_single_partial {a : Entid} {c : Conn} (h : Connected a (SingleOk a) c)
    (hf : a ∈ c.cache.forward) {at_ : Attribute} (hat : c.schema.attr a = some at_)
    (hm : at_.multival = false) (e : Entid) (v : TypedValue) :
    c.cache.getValue c.schema a e = some v ↔ Has c.store.rows e a v := by
  have hi : ConnInv True sSingle a c := connected_inv laws_single shaped_single
    (fun _ => follows_single a) (fun _ _ _ _ h => h.1) (fills_single a) h
  rw [getValue_iff hat hm]
  exact hi.good trivial hf (by simp [hat, sSingle, hm]) e v

/-- C37, cardinality many: only the shape of `a` must stay. -/
theorem C37_multi_partial {a : Entid} {c : Conn} (h : Connected a (SameShape a) c)
    (hf : a ∈ c.cache.forward) {at_ : Attribute} (hat : c.schema.attr a = some at_)
    (hm : at_.multival = true) (e : Entid) (v : TypedValue) :
    v ∈ (c.cache.getValues c.schema a e).getD [] ↔ Has c.store.rows e a v := by
  have hi : ConnInv True sMulti a c := connected_inv laws_multi shaped_multi
    (fun _ => follows_multi a) (fun _ _ _ _ h => h) (fills_multi a) h
  rw [getValues_iff hat hm]
  exact hi.good trivial hf (by simp [hat, sMulti, hm]) e v

/-! ### C38 -/

/-- The condition under which the cache of a unique attribute follows the store. -/
def UniqueOk (a : Entid) : TxCond := fun db db' shown =>
  SameShape a db db' shown ∧ ShownKept a db db' shown ∧ NoSilentRemoval a db db' shown ∧
    RetractsHeld a db db' shown

/-- The condition under which the reverse cache of a non-unique attribute follows the store. -/
def NonUniqueOk (a : Entid) : TxCond := fun db db' shown =>
  SameShape a db db' shown ∧ ShownKept a db db' shown ∧ NoSilentRemoval a db db' shown

/-- C38, unique attributes: in addition, nothing of `a` may be removed except by retracting it
explicitly (so no replacing of cardinality-one values), and only present datoms may be retracted. -/
theorem C38_unique_partial {a : Entid} {c : Conn} (h : Connected a (UniqueOk a) c)
    (hf : a ∈ c.cache.reverse) {at_ : Attribute} (hat : c.schema.attr a = some at_)
    (hu : at_.unique.isSome = true) (e : Entid) (v : TypedValue) :
    c.cache.getEntid a v = some e ↔ Has c.store.rows e a v := by
  have hi : ConnInv True sUnique a c := connected_inv laws_unique shaped_unique
    (fun _ => follows_unique a) (fun _ _ _ _ h => h.1) (fills_unique a) h
  rw [getEntid_iff hf]
  exact hi.good trivial hf (by simp [hat, sUnique, hu]) e v

/-- C38, other attributes. -/
theorem C38_nonUnique_partial {a : Entid} {c : Conn} (h : Connected a (NonUniqueOk a) c)
    (hf : a ∈ c.cache.reverse) {at_ : Attribute} (hat : c.schema.attr a = some at_)
    (hu : at_.unique.isSome = false) (e : Entid) (v : TypedValue) :
    e ∈ (c.cache.getEntids a v).getD [] ↔ Has c.store.rows e a v := by
  have hi : ConnInv True sNonUnique a c := connected_inv laws_nonUnique shaped_nonUnique
    (fun _ => follows_nonUnique a) (fun _ _ _ _ h => h.1) (fills_nonUnique a) h
  rw [getEntids_iff hf]
  exact hi.good trivial hf (by rw [hat]; simpa [sNonUnique] using hu) e v

/-! ### In progress -/

section
variable {G : Prop} {a : Entid} {c : Conn} {p : InProgress}

/-- Not unregistered and cached somewhere is the same as cached in the overlay. -/
theorem ListsInv.forward_iff {p : ProgCache} (h : ListsInv a p) :
    p.cachedForward a = true ↔ a ∈ p.overlay.forward := by
  unfold ProgCache.cachedForward
  simp only [Bool.and_eq_true, Bool.not_eq_true', decide_eq_false_iff_not, Bool.or_eq_true,
    decide_eq_true_eq]
  constructor
  · rintro ⟨h1, h2 | h2⟩
    · rcases h.inner (Or.inl h2) with ⟨-, -, h3, -⟩ | ⟨h3, -⟩
      · exact h3.mpr h2
      · exact absurd h3 h1
    · exact h2
  · intro h1
    exact ⟨h.fwd h1, Or.inr h1⟩

theorem ListsInv.reverse_iff {p : ProgCache} (h : ListsInv a p) :
    p.cachedReverse a = true ↔ a ∈ p.overlay.reverse := by
  unfold ProgCache.cachedReverse
  simp only [Bool.and_eq_true, Bool.not_eq_true', decide_eq_false_iff_not, Bool.or_eq_true,
    decide_eq_true_eq]
  constructor
  · rintro ⟨h1, h2 | h2⟩
    · rcases h.inner (Or.inr h2) with ⟨-, -, -, h3⟩ | ⟨-, h3, -⟩
      · exact h3.mpr h2
      · exact absurd h3 h1
    · exact h2
  · intro h1
    exact ⟨h.rev h1, Or.inr h1⟩

theorem progGetEntid_iff (hc : ConnInv G sUnique a c) (h : ProgInv G sUnique a c p) {e : Entid}
    {v : TypedValue} : p.cache.getEntid a v = some e ↔ p.cache.cachedReverse a = true ∧
      sUnique.holds (sUnique.eff p.cache.overlay (some c.cache) a) e v := by
  rw [h.lists.reverse_iff]
  unfold ProgCache.getEntid
  by_cases hu : a ∈ p.cache.unregReverse
  · rw [if_pos hu]
    constructor
    · simp
    · rintro ⟨h1, -⟩; exact absurd hu (h.lists.rev h1)
  rw [if_neg hu, h.inner]
  by_cases ho : a ∈ p.cache.overlay.reverse
  · rw [if_pos ho, eff_eq sUnique hc.caches ho]
    simp only [ho, true_and]
    have hent : sUnique.entry c.cache a = (AMap.get c.cache.unique a).getD [] := rfl
    have hin : c.cache.getEntid a v = some e ↔ AMap.get (sUnique.entry c.cache a) v = some (some e) := by
      unfold Caches.getEntid
      split
      · rw [hent]
        cases AMap.get c.cache.unique a with
        | none => simp
        | some m =>
          simp only [Option.bind_some, Option.getD_some]
          cases AMap.get m v with
          | none => simp
          | some x => simp
      · rename_i hn
        have : AMap.get c.cache.unique a = none := by
          cases hx : AMap.get c.cache.unique a with
          | none => rfl
          | some x => exact absurd (hc.caches.tidy (by simp [sUnique, hx])) hn
        rw [hent, this]
        simp
    have hfield : sUnique.field p.cache.overlay = p.cache.overlay.unique := rfl
    cases hm : AMap.get p.cache.overlay.unique a with
    | none => rw [hfield, hm]; exact hin
    | some m =>
      rw [hfield, hm]
      simp only [Option.bind_some]
      show _ ↔ AMap.get m v = some (some e)
      cases hg : AMap.get m v with
      | some x => simp
      | none =>
        simp only
        rw [hin]
        have hk := h.keys m hm v
        constructor
        · intro h1
          exact absurd hg (hk (by rw [h1]; simp))
        · intro h1; simp at h1
  · rw [if_neg ho]
    simp only [ho, false_and, iff_false]
    intro h1
    have hr : a ∈ c.cache.reverse := by
      unfold Caches.getEntid at h1
      split at h1
      · assumption
      · simp at h1
    rcases h.lists.inner (Or.inr (by rw [h.inner]; exact hr)) with ⟨-, -, -, h3⟩ | ⟨-, h3, -⟩
    · rw [h.inner] at h3; exact ho (h3.mpr hr)
    · exact hu h3

theorem progGetEntids_iff (hc : ConnInv G sNonUnique a c) (h : ProgInv G sNonUnique a c p) {e : Entid}
    {v : TypedValue} : e ∈ (p.cache.getEntids a v).getD [] ↔ p.cache.cachedReverse a = true ∧
      sNonUnique.holds (sNonUnique.eff p.cache.overlay (some c.cache) a) e v := by
  rw [h.lists.reverse_iff]
  unfold ProgCache.getEntids
  by_cases hu : a ∈ p.cache.unregReverse
  · rw [if_pos hu]
    constructor
    · simp
    · rintro ⟨h1, -⟩; exact absurd hu (h.lists.rev h1)
  rw [if_neg hu, h.inner]
  by_cases ho : a ∈ p.cache.overlay.reverse
  · rw [eff_eq sNonUnique hc.caches ho]
    simp only [ho, true_and]
    have hent : sNonUnique.entry c.cache a = (AMap.get c.cache.nonUnique a).getD [] := rfl
    have hin : e ∈ (c.cache.getEntids a v).getD [] ↔ sNonUnique.holds (sNonUnique.entry c.cache a) e v := by
      by_cases hn : a ∈ c.cache.reverse
      · exact getEntids_iff hn
      · unfold Caches.getEntids
        rw [if_neg hn]
        have : AMap.get c.cache.nonUnique a = none := by
          cases hx : AMap.get c.cache.nonUnique a with
          | none => rfl
          | some x => exact absurd (hc.caches.tidy (by simp [sNonUnique, hx])) hn
        rw [hent, this]
        simp [AMap.get, sNonUnique]
    have hfield : sNonUnique.field p.cache.overlay = p.cache.overlay.nonUnique := rfl
    have hover : p.cache.overlay.getEntids a v =
        (AMap.get p.cache.overlay.nonUnique a).bind fun m => AMap.get m v := by
      unfold Caches.getEntids; rw [if_pos ho]
    rw [hover]
    cases hm : AMap.get p.cache.overlay.nonUnique a with
    | none => rw [hfield, hm]; exact hin
    | some m =>
      rw [hfield, hm]
      simp only [Option.bind_some]
      show _ ↔ ∃ es, AMap.get m v = some es ∧ e ∈ es
      cases hg : AMap.get m v with
      | some x => simp
      | none =>
        simp only
        rw [hin]
        have hk := h.keys m hm v
        constructor
        · rintro ⟨es, h1, -⟩
          exact absurd hg (hk (by rw [h1]; simp))
        · rintro ⟨es, h1, -⟩; simp at h1
  · have hover : p.cache.overlay.getEntids a v = none := by
      unfold Caches.getEntids; rw [if_neg ho]
    rw [hover]
    simp only [ho, false_and, iff_false]
    intro h1
    have hr : a ∈ c.cache.reverse := by
      unfold Caches.getEntids at h1
      split at h1
      · assumption
      · simp at h1
    rcases h.lists.inner (Or.inr (by rw [h.inner]; exact hr)) with ⟨-, -, -, h3⟩ | ⟨-, h3, -⟩
    · rw [h.inner] at h3; exact ho (h3.mpr hr)
    · exact hu h3

theorem progGetValues_iff (hc : ConnInv G sMulti a c) (h : ProgInv G sMulti a c p) {e : Entid}
    {v : TypedValue} {s : Schema} {at_ : Attribute} (hat : s.attr a = some at_)
    (hmv : at_.multival = true) :
    v ∈ (p.cache.getValues s a e).getD [] ↔ p.cache.cachedForward a = true ∧
      sMulti.holds (sMulti.eff p.cache.overlay (some c.cache) a) e v := by
  rw [h.lists.forward_iff]
  unfold ProgCache.getValues
  by_cases hu : a ∈ p.cache.unregForward
  · rw [if_pos hu]
    constructor
    · simp
    · rintro ⟨h1, -⟩; exact absurd hu (h.lists.fwd h1)
  rw [if_neg hu, h.inner]
  have hover : p.cache.overlay.getValues s a e =
      (AMap.get p.cache.overlay.multi a).bind fun m => AMap.get m e := by
    unfold Caches.getValues; simp [hat, hmv]
  rw [hover]
  by_cases ho : a ∈ p.cache.overlay.forward
  · rw [eff_eq sMulti hc.caches ho]
    simp only [ho, true_and]
    have hfield : sMulti.field p.cache.overlay = p.cache.overlay.multi := rfl
    cases hm : AMap.get p.cache.overlay.multi a with
    | none => rw [hfield, hm]; exact getValues_iff hat hmv
    | some m =>
      rw [hfield, hm]
      simp only [Option.bind_some]
      show _ ↔ ∃ es, AMap.get m e = some es ∧ v ∈ es
      cases hg : AMap.get m e with
      | some x => simp
      | none =>
        simp only
        rw [getValues_iff hat hmv]
        have hk := h.keys m hm e
        constructor
        · rintro ⟨es, h1, -⟩
          exact absurd hg (hk (by rw [h1]; simp))
        · rintro ⟨es, h1, -⟩; simp at h1
  · have : AMap.get p.cache.overlay.multi a = none := by
      cases hx : AMap.get p.cache.overlay.multi a with
      | none => rfl
      | some x => exact absurd (h.over.tidy (by simp [sMulti, hx])) ho
    rw [this]
    simp only [ho, false_and, iff_false, Option.bind_none]
    rw [getValues_iff hat hmv]
    intro h1
    have hr : a ∈ c.cache.forward := by
      refine hc.caches.tidy ?_
      intro hn
      unfold Slot.entry at h1
      rw [hn] at h1
      exact laws_multi.holdsNil _ _ h1
    rcases h.lists.inner (Or.inl (by rw [h.inner]; exact hr)) with ⟨-, -, h3, -⟩ | ⟨h3, -⟩
    · rw [h.inner] at h3; exact ho (h3.mpr hr)
    · exact hu h3

/-- A value that the overlay has shows; a value it has not may still show (it falls through to the
cache of the connection). -/
theorem progGetValue_of (hc : ConnInv G sSingle a c) (h : ProgInv G sSingle a c p) {e : Entid}
    {v : TypedValue} {s : Schema} {at_ : Attribute} (hat : s.attr a = some at_)
    (hmv : at_.multival = false) (ho : p.cache.cachedForward a = true)
    (hh : sSingle.holds (sSingle.eff p.cache.overlay (some c.cache) a) e v) :
    p.cache.getValue s a e = some v := by
  rw [h.lists.forward_iff] at ho
  unfold ProgCache.getValue
  rw [if_neg (h.lists.fwd ho), h.inner]
  rw [eff_eq sSingle hc.caches ho] at hh
  have hover : p.cache.overlay.getValue s a e =
      ((AMap.get p.cache.overlay.single a).bind fun m => AMap.get m e).join := by
    unfold Caches.getValue; simp [hat, hmv]
  have hfield : sSingle.field p.cache.overlay = p.cache.overlay.single := rfl
  rw [hover]
  cases hm : AMap.get p.cache.overlay.single a with
  | none =>
    rw [hfield, hm] at hh
    exact (getValue_iff hat hmv).mpr hh
  | some m =>
    rw [hfield, hm] at hh
    have hh : AMap.get m e = some (some v) := hh
    simp [hh]

end

/-- Inside a transaction, too, the reverse cache of a unique attribute answers what the store holds
(as seen inside the transaction). -/
theorem C38_unique_inProgress_partial {a : Entid} {c : Conn} {p : InProgress}
    (h : Connected a (UniqueOk a) c) (hs : Session a (UniqueOk a) c p)
    (hf : p.cache.cachedReverse a = true) {at_ : Attribute} (hat : p.schema.attr a = some at_)
    (hu : at_.unique.isSome = true) (e : Entid) (v : TypedValue) :
    p.cache.getEntid a v = some e ↔ Has p.store.rows e a v := by
  have hc : ConnInv True sUnique a c := connected_inv laws_unique shaped_unique
    (fun _ => follows_unique a) (fun _ _ _ _ h => h.1) (fills_unique a) h
  have hp := session_inv laws_unique shaped_unique (fun _ => follows_unique a)
    (fun _ _ _ _ h => h.1) (fills_unique a) hc hs
  rw [progGetEntid_iff hc hp]
  simp only [hf, true_and]
  exact hp.good trivial (hp.lists.reverse_iff.mp hf) (by simp [hat, sUnique, hu]) e v

theorem C38_nonUnique_inProgress_partial {a : Entid} {c : Conn} {p : InProgress}
    (h : Connected a (NonUniqueOk a) c) (hs : Session a (NonUniqueOk a) c p)
    (hf : p.cache.cachedReverse a = true) {at_ : Attribute} (hat : p.schema.attr a = some at_)
    (hu : at_.unique.isSome = false) (e : Entid) (v : TypedValue) :
    e ∈ (p.cache.getEntids a v).getD [] ↔ Has p.store.rows e a v := by
  have hc : ConnInv True sNonUnique a c := connected_inv laws_nonUnique shaped_nonUnique
    (fun _ => follows_nonUnique a) (fun _ _ _ _ h => h.1) (fills_nonUnique a) h
  have hp := session_inv laws_nonUnique shaped_nonUnique (fun _ => follows_nonUnique a)
    (fun _ _ _ _ h => h.1) (fills_nonUnique a) hc hs
  rw [progGetEntids_iff hc hp]
  simp only [hf, true_and]
  exact hp.good trivial (hp.lists.reverse_iff.mp hf) (by rw [hat]; simpa [sNonUnique] using hu) e v

theorem C37_multi_inProgress_partial {a : Entid} {c : Conn} {p : InProgress}
    (h : Connected a (SameShape a) c) (hs : Session a (SameShape a) c p)
    (hf : p.cache.cachedForward a = true) {at_ : Attribute} (hat : p.schema.attr a = some at_)
    (hm : at_.multival = true) (e : Entid) (v : TypedValue) :
    v ∈ (p.cache.getValues p.schema a e).getD [] ↔ Has p.store.rows e a v := by
  have hc : ConnInv True sMulti a c := connected_inv laws_multi shaped_multi
    (fun _ => follows_multi a) (fun _ _ _ _ h => h) (fills_multi a) h
  have hp := session_inv laws_multi shaped_multi (fun _ => follows_multi a)
    (fun _ _ _ _ h => h) (fills_multi a) hc hs
  rw [progGetValues_iff hc hp hat hm]
  simp only [hf, true_and]
  exact hp.good trivial (hp.lists.forward_iff.mp hf) (by simp [hat, sMulti, hm]) e v

/-- A value the store holds inside the transaction is found; the converse fails
(`C37_inProgress_fails`). -/
theorem C37_single_inProgress_partial {a : Entid} {c : Conn} {p : InProgress}
    (h : Connected a (SingleOk a) c) (hs : Session a (SingleOk a) c p)
    (hf : p.cache.cachedForward a = true) {at_ : Attribute} (hat : p.schema.attr a = some at_)
    (hm : at_.multival = false) {e : Entid} {v : TypedValue} (hv : Has p.store.rows e a v) :
    p.cache.getValue p.schema a e = some v := by
  have hc : ConnInv True sSingle a c := connected_inv laws_single shaped_single
    (fun _ => follows_single a) (fun _ _ _ _ h => h.1) (fills_single a) h
  have hp := session_inv laws_single shaped_single (fun _ => follows_single a)
    (fun _ _ _ _ h => h.1) (fills_single a) hc hs
  refine progGetValue_of hc hp hat hm hf ?_
  exact (hp.good trivial (hp.lists.forward_iff.mp hf) (by simp [hat, sSingle, hm]) e v).mpr hv

/-! ### C39 -/

/-- C39: whatever the transactions in a session did, once it commits the cache of the connection
caches `a` exactly in the directions in which the session did, and answers reverse lookups and
many-valued lookups as the session did.  (Sessions here register `a` only if it was not cached when
they began; `C39_fails_reregister` shows why.) -/
theorem C39_commit_partial {a : Entid} {c c' : Conn} {p : InProgress} {txes}
    (h : Connected a AnyTx c) (hs : Session a AnyTx c p) (hcm : c.commit p = (.ok txes, c')) :
    (a ∈ c'.cache.forward ↔ p.cache.cachedForward a = true) ∧
    (a ∈ c'.cache.reverse ↔ p.cache.cachedReverse a = true) ∧
    (∀ v, c'.cache.getEntid a v = p.cache.getEntid a v) ∧
    (∀ v e, e ∈ (c'.cache.getEntids a v).getD [] ↔ e ∈ (p.cache.getEntids a v).getD []) ∧
    (∀ at_, c'.schema.attr a = some at_ → at_.multival = true → ∀ e v,
      v ∈ (c'.cache.getValues c'.schema a e).getD [] ↔ v ∈ (p.cache.getValues p.schema a e).getD []) ∧
    (∀ at_, c'.schema.attr a = some at_ → at_.multival = false → ∀ e v,
      c'.cache.getValue c'.schema a e = some v → p.cache.getValue p.schema a e = some v) := by
  obtain ⟨-, -, k, hk, rfl⟩ := commit_ok hcm
  have c1 : ConnInv False sSingle a c := connected_inv laws_single shaped_single
    (fun f => f.elim) (fun f => f.elim) (fills_single a) h
  have p1 := session_inv laws_single shaped_single (fun f => f.elim) (fun f => f.elim)
    (fills_single a) c1 hs
  have c2 : ConnInv False sMulti a c := connected_inv laws_multi shaped_multi
    (fun f => f.elim) (fun f => f.elim) (fills_multi a) h
  have p2 := session_inv laws_multi shaped_multi (fun f => f.elim) (fun f => f.elim)
    (fills_multi a) c2 hs
  have c3 : ConnInv False sUnique a c := connected_inv laws_unique shaped_unique
    (fun f => f.elim) (fun f => f.elim) (fills_unique a) h
  have p3 := session_inv laws_unique shaped_unique (fun f => f.elim) (fun f => f.elim)
    (fills_unique a) c3 hs
  have c4 : ConnInv False sNonUnique a c := connected_inv laws_nonUnique shaped_nonUnique
    (fun f => f.elim) (fun f => f.elim) (fills_nonUnique a) h
  have p4 := session_inv laws_nonUnique shaped_nonUnique (fun f => f.elim) (fun f => f.elim)
    (fills_nonUnique a) c4 hs
  obtain ⟨i1, f1, e1⟩ := commitTo_inv laws_single c1 p1 hk
  obtain ⟨i2, f2, e2⟩ := commitTo_inv laws_multi c2 p2 hk
  obtain ⟨i3, f3, e3⟩ := commitTo_inv laws_unique c3 p3 hk
  obtain ⟨i4, f4, e4⟩ := commitTo_inv laws_nonUnique c4 p4 hk
  have hF : a ∈ k.forward ↔ p.cache.cachedForward a = true := f1.trans p1.lists.forward_iff.symm
  have hR : a ∈ k.reverse ↔ p.cache.cachedReverse a = true := f3.trans p1.lists.reverse_iff.symm
  refine ⟨hF, hR, ?_, ?_, ?_, ?_⟩
  · intro v
    have : ∀ e, k.getEntid a v = some e ↔ p.cache.getEntid a v = some e := by
      intro e
      rw [progGetEntid_iff c3 p3, ← hR]
      by_cases hr : a ∈ k.reverse
      · rw [getEntid_iff hr, e3 hr e v]
        simp [hr]
      · unfold Caches.getEntid
        simp [hr]
    exact Option.ext this
  · intro v e
    rw [progGetEntids_iff c4 p4, ← hR]
    show e ∈ (k.getEntids a v).getD [] ↔ _
    by_cases hr : a ∈ k.reverse
    · rw [getEntids_iff hr, e4 hr e v]
      simp [hr]
    · unfold Caches.getEntids
      simp [hr]
  · intro at_ hat hm e v
    have hat : p.schema.attr a = some at_ := hat
    rw [progGetValues_iff c2 p2 hat hm, ← hF]
    show v ∈ (k.getValues p.schema a e).getD [] ↔ _
    rw [getValues_iff hat hm]
    by_cases hr : a ∈ k.forward
    · rw [e2 hr e v]
      simp [hr]
    · simp only [hr, false_and, iff_false]
      intro h1
      apply hr
      refine i2.tidy ?_
      intro hn
      unfold Slot.entry at h1
      rw [hn] at h1
      exact laws_multi.holdsNil _ _ h1
  · intro at_ hat hm e v hv
    have hat : p.schema.attr a = some at_ := hat
    have hv : k.getValue p.schema a e = some v := hv
    rw [getValue_iff hat hm] at hv
    have hr : a ∈ k.forward := by
      refine i1.tidy ?_
      intro hn
      unfold Slot.entry at hv
      rw [hn] at hv
      exact laws_single.holdsNil _ _ hv
    exact progGetValue_of c1 p1 hat hm (hF.mp hr) ((e1 hr e v).mp hv)

/-! ### Concrete cases -/

/-- The data of the examples, committed. -/
def dataSession : COp := .session [.tx dataTx]

theorem C37_single_example : ∃ c, Connected xOne (SingleOk xOne) c ∧ xOne ∈ c.cache.forward ∧
    c.cache.getValue c.schema xOne e1 = some (str "b") ∧ Has c.store.rows e1 xOne (str "b") ∧
    c.cache.getValue c.schema xOne 65540 = none := by
  obtain ⟨c, hc, hp⟩ := connected_of_setup (a := xOne) (Q := SingleOk xOne)
    (Qb := fun db db' shown => sameShapeB xOne db db' shown && shownKeptB xOne db db' shown)
    (by
      intro db db' shown h
      rw [Bool.and_eq_true] at h
      exact ⟨sameShapeB_iff h.1, shownKeptB_iff h.2⟩)
    [dataSession, .reg xOne .both, .session [.tx ([addT "f" xOne (str "c")], [tid "f"])],
      .session [.tx ([retE 65540 xOne (str "c")], []), .tx changeTx]]
    (pr := fun c => decide (xOne ∈ c.cache.forward) &&
      decide (c.cache.getValue c.schema xOne e1 = some (str "b")) && hasB c.db e1 xOne (str "b") &&
      decide (c.cache.getValue c.schema xOne 65540 = none)) (by decide +kernel)
  simp only [Bool.and_eq_true, decide_eq_true_eq, hasB_iff] at hp
  exact ⟨c, hc, hp.1.1.1, hp.1.1.2, hp.1.2, hp.2⟩

theorem C37_multi_example : ∃ c, Connected xMany (SameShape xMany) c ∧ xMany ∈ c.cache.forward ∧
    c.cache.getValues c.schema xMany e1 = some [.long 2, .long 4] := by
  obtain ⟨c, hc, hp⟩ := connected_of_setup (a := xMany) (Q := SameShape xMany)
    (Qb := sameShapeB xMany) (fun _ _ _ => sameShapeB_iff)
    [dataSession, .session [.reg xMany .both, .tx ([addE e1 xMany (.long 4), retE e1 xMany (.long 1)], [])]]
    (pr := fun c => decide (xMany ∈ c.cache.forward) &&
      decide (c.cache.getValues c.schema xMany e1 = some [.long 2, .long 4])) (by decide +kernel)
  simp only [Bool.and_eq_true, decide_eq_true_eq] at hp
  exact ⟨c, hc, hp.1, hp.2⟩

theorem C38_unique_example : ∃ c, Connected xId (UniqueOk xId) c ∧ xId ∈ c.cache.reverse ∧
    c.cache.getEntid xId (str "k") = none ∧ c.cache.getEntid xId (str "m") = some 65540 := by
  obtain ⟨c, hc, hp⟩ := connected_of_setup (a := xId) (Q := UniqueOk xId)
    (Qb := fun db db' shown => sameShapeB xId db db' shown && shownKeptB xId db db' shown &&
      noSilentB xId db db' shown && retractsHeldB xId db db' shown)
    (by
      intro db db' shown h
      simp only [Bool.and_eq_true] at h
      exact ⟨sameShapeB_iff h.1.1.1, shownKeptB_iff h.1.1.2, noSilentB_iff h.1.2, retractsHeldB_iff h.2⟩)
    [dataSession, .reg xId .reverse, .session [.tx ([addT "f" xId (str "m")], [tid "f"]),
      .tx ([retE e1 xId (str "k")], [])]]
    (pr := fun c => decide (xId ∈ c.cache.reverse) &&
      decide (c.cache.getEntid xId (str "k") = none) &&
      decide (c.cache.getEntid xId (str "m") = some 65540)) (by decide +kernel)
  simp only [Bool.and_eq_true, decide_eq_true_eq] at hp
  exact ⟨c, hc, hp.1.1, hp.1.2, hp.2⟩

theorem C38_nonUnique_example : ∃ c p, Connected xMany (NonUniqueOk xMany) c ∧
    Session xMany (NonUniqueOk xMany) c p ∧ xMany ∈ c.cache.reverse ∧
    c.cache.getEntids xMany (.long 2) = some [e1, 65540] ∧
    p.cache.getEntids xMany (.long 2) = some [65540] := by
  obtain ⟨c, p, hc, hs, hp⟩ := session_of_setup (a := xMany) (Q := NonUniqueOk xMany)
    (Qb := fun db db' shown => sameShapeB xMany db db' shown && shownKeptB xMany db db' shown &&
      noSilentB xMany db db' shown)
    (by
      intro db db' shown h
      simp only [Bool.and_eq_true] at h
      exact ⟨sameShapeB_iff h.1.1, shownKeptB_iff h.1.2, noSilentB_iff h.2⟩)
    [dataSession, .reg xMany .both, .session [.tx ([addT "f" xMany (.long 2)], [tid "f"])]]
    [.tx ([retE e1 xMany (.long 2)], [])]
    (pr := fun c p => decide (xMany ∈ c.cache.reverse) &&
      decide (c.cache.getEntids xMany (.long 2) = some [e1, 65540]) &&
      decide (p.cache.getEntids xMany (.long 2) = some [65540])) (by decide +kernel)
  simp only [Bool.and_eq_true, decide_eq_true_eq] at hp
  exact ⟨c, p, hc, hs, hp.1.1, hp.1.2, hp.2⟩

/-- A session that changes what is cached, and commits. -/
theorem C39_example : ∃ c p txes c', Connected xId AnyTx c ∧ Session xId AnyTx c p ∧
    c.commit p = (.ok txes, c') ∧ c.cache.getEntid xId (str "m") = none ∧
    c'.cache.getEntid xId (str "m") = some e1 := by
  obtain ⟨c, p, hc, hs, hp⟩ := session_of_setup (a := xId) (Q := AnyTx) (Qb := fun _ _ _ => true)
    (fun _ _ _ _ => trivial) [dataSession, .reg xId .reverse]
    [.tx ([addE e1 xId (str "m")], []), .reg xMany .forward]
    (pr := fun c p => decide (c.cache.getEntid xId (str "m") = none) && match c.commit p with
      | (.ok _, c') => decide (c'.cache.getEntid xId (str "m") = some e1)
      | _ => false) (by decide +kernel)
  rw [Bool.and_eq_true] at hp
  obtain ⟨h1, h2⟩ := hp
  split at h2
  · rename_i txes c' hcm
    exact ⟨c, p, txes, c', hc, hs, hcm, of_decide_eq_true h1, of_decide_eq_true h2⟩
  · simp at h2

/-! ### Where the full statements fail -/

/-- The full C37 fails: asserting the value a cardinality-one attribute has while retracting another
deletes the datom (C20), but the cache keeps it: it applies the retractions first and then the
assertions. -/
theorem C37_fails : ∃ c at_, Connected xOne AnyTx c ∧ xOne ∈ c.cache.forward ∧
    c.schema.attr xOne = some at_ ∧ at_.multival = false ∧
    c.cache.getValue c.schema xOne e1 = some (str "a") ∧ ¬ Has c.store.rows e1 xOne (str "a") := by
  obtain ⟨c, hc, hp⟩ := connected_of_setup (a := xOne) (Q := AnyTx) (Qb := fun _ _ _ => true)
    (fun _ _ _ _ => trivial) [dataSession, .reg xOne .forward,
      .session [.tx ([addE e1 xOne (str "a"), retE e1 xOne (str "zz")], [])]]
    (pr := fun c => decide (xOne ∈ c.cache.forward) && (c.schema.attr xOne).any (fun x => !x.multival) &&
      decide (c.cache.getValue c.schema xOne e1 = some (str "a")) && !hasB c.db e1 xOne (str "a"))
    (by decide +kernel)
  simp only [Bool.and_eq_true, decide_eq_true_eq] at hp
  obtain ⟨at_, hat, hm⟩ := any_some' hp.1.1.2
  refine ⟨c, at_, hc, hp.1.1.1, hat, by simpa using hm, hp.1.2, ?_⟩
  intro hn
  have := hp.2
  rw [hasB_iff.mpr hn] at this
  simp at this

/-- The full C37 fails: when a cached attribute becomes cardinality many the values stay in the cache
for single values, and the cache for many values, now consulted, is empty. -/
theorem C37_fails_alter : ∃ c at_, Connected xOne AnyTx c ∧ xOne ∈ c.cache.forward ∧
    c.schema.attr xOne = some at_ ∧ at_.multival = true ∧
    c.cache.getValues c.schema xOne e1 = none ∧ Has c.store.rows e1 xOne (str "a") := by
  obtain ⟨c, hc, hp⟩ := connected_of_setup (a := xOne) (Q := AnyTx) (Qb := fun _ _ _ => true)
    (fun _ _ _ _ => trivial) [dataSession, .reg xOne .forward,
      .session [.tx ([addE xOne DB_CARDINALITY (.ref DB_CARDINALITY_MANY)], [])]]
    (pr := fun c => decide (xOne ∈ c.cache.forward) && (c.schema.attr xOne).any (fun x => x.multival) &&
      decide (c.cache.getValues c.schema xOne e1 = none) && hasB c.db e1 xOne (str "a"))
    (by decide +kernel)
  simp only [Bool.and_eq_true, decide_eq_true_eq] at hp
  obtain ⟨at_, hat, hm⟩ := any_some' hp.1.1.2
  exact ⟨c, at_, hc, hp.1.1.1, hat, hm, hp.1.2, hasB_iff.mp hp.2⟩

/-- The full C37 fails: re-asserting a value of a cardinality-many attribute, which changes nothing in
the store, makes the cache list it twice. -/
theorem C37_fails_duplicate : ∃ c, Connected xMany (SameShape xMany) c ∧ xMany ∈ c.cache.forward ∧
    c.cache.getValues c.schema xMany e1 = some [.long 1, .long 2, .long 2] := by
  obtain ⟨c, hc, hp⟩ := connected_of_setup (a := xMany) (Q := SameShape xMany)
    (Qb := sameShapeB xMany) (fun _ _ _ => sameShapeB_iff)
    [dataSession, .reg xMany .forward, .session [.tx ([addE e1 xMany (.long 2)], [])]]
    (pr := fun c => decide (xMany ∈ c.cache.forward) &&
      decide (c.cache.getValues c.schema xMany e1 = some [.long 1, .long 2, .long 2])) (by decide +kernel)
  simp only [Bool.and_eq_true, decide_eq_true_eq] at hp
  exact ⟨c, hc, hp.1, hp.2⟩

/-- The full C37 fails inside a transaction: a retracted value is still returned (the mark left in the
overlay is taken for "not in the overlay"). -/
theorem C37_inProgress_fails : ∃ c p, Connected xOne (SingleOk xOne) c ∧ Session xOne (SingleOk xOne) c p ∧
    p.cache.cachedForward xOne = true ∧ p.cache.getValue p.schema xOne e1 = some (str "a") ∧
    ¬ Has p.store.rows e1 xOne (str "a") := by
  obtain ⟨c, p, hc, hs, hp⟩ := session_of_setup (a := xOne) (Q := SingleOk xOne)
    (Qb := fun db db' shown => sameShapeB xOne db db' shown && shownKeptB xOne db db' shown)
    (by
      intro db db' shown h
      rw [Bool.and_eq_true] at h
      exact ⟨sameShapeB_iff h.1, shownKeptB_iff h.2⟩)
    [dataSession, .reg xOne .forward] [.tx ([retE e1 xOne (str "a")], [])]
    (pr := fun _ p => p.cache.cachedForward xOne &&
      decide (p.cache.getValue p.schema xOne e1 = some (str "a")) && !hasB p.db e1 xOne (str "a"))
    (by decide +kernel)
  simp only [Bool.and_eq_true, decide_eq_true_eq] at hp
  refine ⟨c, p, hc, hs, hp.1.1, hp.1.2, ?_⟩
  intro hn
  have := hp.2
  rw [hasB_iff.mpr hn] at this
  simp at this

/-- The full C38 fails: replacing the value of a cardinality-one attribute leaves the old value in the
reverse cache. -/
theorem C38_fails : ∃ c, Connected xId AnyTx c ∧ xId ∈ c.cache.reverse ∧
    c.cache.getEntid xId (str "k") = some e1 ∧ ¬ Has c.store.rows e1 xId (str "k") ∧
    Has c.store.rows e1 xId (str "m") := by
  obtain ⟨c, hc, hp⟩ := connected_of_setup (a := xId) (Q := AnyTx) (Qb := fun _ _ _ => true)
    (fun _ _ _ _ => trivial) [dataSession, .reg xId .reverse,
      .session [.tx ([addE e1 xId (str "m")], [])]]
    (pr := fun c => decide (xId ∈ c.cache.reverse) &&
      decide (c.cache.getEntid xId (str "k") = some e1) && !hasB c.db e1 xId (str "k") &&
      hasB c.db e1 xId (str "m")) (by decide +kernel)
  simp only [Bool.and_eq_true, decide_eq_true_eq] at hp
  refine ⟨c, hc, hp.1.1.1, hp.1.1.2, ?_, hasB_iff.mp hp.2⟩
  intro hn
  have := hp.1.2
  rw [show hasB c.db e1 xId (str "k") = true from hasB_iff.mpr hn] at this
  simp at this

/-- The same for an attribute that is not unique. -/
theorem C38_fails_nonUnique : ∃ c, Connected xOne AnyTx c ∧ xOne ∈ c.cache.reverse ∧
    c.cache.getEntids xOne (str "a") = some [e1] ∧ ¬ Has c.store.rows e1 xOne (str "a") := by
  obtain ⟨c, hc, hp⟩ := connected_of_setup (a := xOne) (Q := AnyTx) (Qb := fun _ _ _ => true)
    (fun _ _ _ _ => trivial) [dataSession, .reg xOne .reverse,
      .session [.tx ([addE e1 xOne (str "b")], [])]]
    (pr := fun c => decide (xOne ∈ c.cache.reverse) &&
      decide (c.cache.getEntids xOne (str "a") = some [e1]) && !hasB c.db e1 xOne (str "a"))
    (by decide +kernel)
  simp only [Bool.and_eq_true, decide_eq_true_eq] at hp
  refine ⟨c, hc, hp.1.1, hp.1.2, ?_⟩
  intro hn
  have := hp.2
  rw [show hasB c.db e1 xOne (str "a") = true from hasB_iff.mpr hn] at this
  simp at this

/-- The full C38 fails: retracting a unique value from an entity that does not have it, which changes
nothing in the store, makes the cache forget the entity that has it. -/
theorem C38_fails_retract : ∃ c, Connected xId AnyTx c ∧ xId ∈ c.cache.reverse ∧
    c.cache.getEntid xId (str "k") = none ∧ Has c.store.rows e1 xId (str "k") := by
  obtain ⟨c, hc, hp⟩ := connected_of_setup (a := xId) (Q := AnyTx) (Qb := fun _ _ _ => true)
    (fun _ _ _ _ => trivial) [dataSession, .session [.tx ([addT "f" xOne (str "c")], [tid "f"])],
      .reg xId .reverse, .session [.tx ([retE 65540 xId (str "k")], [])]]
    (pr := fun c => decide (xId ∈ c.cache.reverse) &&
      decide (c.cache.getEntid xId (str "k") = none) && hasB c.db e1 xId (str "k")) (by decide +kernel)
  simp only [Bool.and_eq_true, decide_eq_true_eq] at hp
  exact ⟨c, hc, hp.1.1, hp.1.2, hasB_iff.mp hp.2⟩

/-- The full C39 fails: after the commit the reader no longer sees a value the session still showed. -/
theorem C39_fails : ∃ c p txes c', Connected xOne AnyTx c ∧ Session xOne AnyTx c p ∧
    c.commit p = (.ok txes, c') ∧ p.cache.getValue p.schema xOne e1 = some (str "a") ∧
    c'.cache.getValue c'.schema xOne e1 = none := by
  obtain ⟨c, p, hc, hs, hp⟩ := session_of_setup (a := xOne) (Q := AnyTx) (Qb := fun _ _ _ => true)
    (fun _ _ _ _ => trivial) [dataSession, .reg xOne .forward] [.tx ([retE e1 xOne (str "a")], [])]
    (pr := fun c p => decide (p.cache.getValue p.schema xOne e1 = some (str "a")) && match c.commit p with
      | (.ok _, c') => decide (c'.cache.getValue c'.schema xOne e1 = none)
      | _ => false) (by decide +kernel)
  rw [Bool.and_eq_true] at hp
  obtain ⟨h1, h2⟩ := hp
  split at h2
  · rename_i txes c' hcm
    exact ⟨c, p, txes, c', hc, hs, hcm, of_decide_eq_true h1, of_decide_eq_true h2⟩
  · simp at h2

/-- The full C39 fails: a session that unregisters a cached attribute and registers it again (in both directions) publishes
the old entries under the new ones: here a value retracted in between stays in the cache. -/
theorem C39_fails_reregister : ∃ c p p' txes c', Connected xOne AnyTx c ∧ Session xOne AnyTx c p ∧
    p.register xOne .both = .ok p' ∧ c.commit p' = (.ok txes, c') ∧
    ¬ Has p'.store.rows e1 xOne (str "a") ∧
    AMap.get (p'.cache.overlay.single) xOne = some [(65540, some (str "c"))] ∧
    c'.cache.getValue c'.schema xOne e1 = some (str "a") := by
  obtain ⟨c, p, hc, hs, hp⟩ := session_of_setup (a := xOne) (Q := AnyTx) (Qb := fun _ _ _ => true)
    (fun _ _ _ _ => trivial) [dataSession, .session [.tx ([addT "f" xOne (str "c")], [tid "f"])],
      .reg xOne .forward]
    [.unreg xOne, .tx ([retE e1 xOne (str "a")], [])]
    (pr := fun c p => match p.register xOne .both with
      | .ok p' => match c.commit p' with
        | (.ok _, c') => !hasB p'.db e1 xOne (str "a") &&
          decide (AMap.get (p'.cache.overlay.single) xOne = some [(65540, some (str "c"))]) &&
          decide (c'.cache.getValue c'.schema xOne e1 = some (str "a"))
        | _ => false
      | _ => false) (by decide +kernel)
  split at hp
  · rename_i p' hr
    split at hp
    · rename_i txes c' hcm
      simp only [Bool.and_eq_true, decide_eq_true_eq] at hp
      refine ⟨c, p, p', txes, c', hc, hs, hr, hcm, ?_, hp.1.2, hp.2⟩
      intro hn
      have := hp.1.1
      rw [show hasB p'.db e1 xOne (str "a") = true from hasB_iff.mpr hn] at this
      simp at this
    · simp at hp
  · simp at hp

/-- The full C39 fails: while a clone of the cache is alive a session cannot commit: the process
panics after SQLite has committed, leaving the connection with the new tables and the old schema. -/
theorem C39_fails_shared : ∃ c p c', Connected xOne AnyTx c ∧ Session xOne AnyTx c p ∧
    c.commit p = (.panic, c') ∧ c'.store = p.store ∧ c'.store ≠ c.store ∧ c'.schema = c.schema ∧
    c'.schema ≠ p.schema := by
  obtain ⟨c, p, hc, hs, hp⟩ := session_of_setup (a := xOne) (Q := AnyTx) (Qb := fun _ _ _ => true)
    (fun _ _ _ _ => trivial) [dataSession, .reg xOne .forward, .share true]
    [.tx (install "new" DB_TYPE_STRING DB_CARDINALITY_ONE, [tid "new"])]
    (pr := fun c p => match c.commit p with
      | (.panic, c') => decide (c'.store = p.store) && decide (c'.store ≠ c.store) &&
          decide (c'.schema = c.schema) && decide (c'.schema ≠ p.schema)
      | _ => false) (by decide +kernel)
  split at hp
  · rename_i c' hcm
    simp only [Bool.and_eq_true, decide_eq_true_eq] at hp
    exact ⟨c, p, c', hc, hs, hcm, hp.1.1.1, hp.1.1.2, hp.1.2, hp.2⟩
  · simp at hp

end Mentat
