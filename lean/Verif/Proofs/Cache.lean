import Verif.Proofs.Session
/-
The four caches of an attribute treated uniformly: a `Slot` is one of the four maps of `Caches`, with
its operations; `eff` is what the slot means in an overlay over a base.
-/
namespace Mentat

structure Slot (K V : Type) where
  field : Caches → AMap Entid (AMap K V)
  cached : Caches → List Entid
  on : Attribute → Bool
  add : AMap K V → Entid × TypedValue → AMap K V
  remove : AMap K V → Entid × TypedValue → AMap K V
  absorb : AMap K V → AMap K V → AMap K V
  /-- the entry says that `e` has `v` -/
  holds : AMap K V → Entid → TypedValue → Prop

def sSingle : Slot Entid (Option TypedValue) where
  field := (·.single)
  cached := (·.forward)
  on at_ := !at_.multival
  add := SingleVals.set
  remove := SingleVals.remove
  absorb := absorbOpt
  holds m e v := AMap.get m e = some (some v)

def sMulti : Slot Entid (List TypedValue) where
  field := (·.multi)
  cached := (·.forward)
  on at_ := at_.multival
  add := MultiVals.acc
  remove := MultiVals.remove
  absorb := absorbList
  holds m e v := ∃ vs, AMap.get m e = some vs ∧ v ∈ vs

def sUnique : Slot TypedValue (Option Entid) where
  field := (·.unique)
  cached := (·.reverse)
  on at_ := at_.unique.isSome
  add := UniqueReverse.set
  remove := UniqueReverse.remove
  absorb := absorbOpt
  holds m e v := AMap.get m v = some (some e)

def sNonUnique : Slot TypedValue (List Entid) where
  field := (·.nonUnique)
  cached := (·.reverse)
  on at_ := !at_.unique.isSome
  add := NonUniqueReverse.acc
  remove := NonUniqueReverse.remove
  absorb := absorbList
  holds m e v := ∃ es, AMap.get m v = some es ∧ e ∈ es

/-- Every key of `m` is a key of `m'`. -/
def KeysIn {K V : Type} [DecidableEq K] (m m' : AMap K V) : Prop :=
  ∀ k, AMap.get m k ≠ none → AMap.get m' k ≠ none

structure Slot.Laws {K V : Type} [DecidableEq K] (S : Slot K V) : Prop where
  run : ∀ {c c' : Caches} {fb : Option Caches} {s b r}, c.accumulateRun fb s b r = .ok c' →
    c'.forward = c.forward ∧ c'.reverse = c.reverse ∧ ∃ at_, s.attr r.1 = some at_ ∧
    S.field c' = if decide (r.1 ∈ S.cached c) && S.on at_ then
        accumEntry S.add S.remove (S.field c) ((fb.filter fun f =>
          decide (r.1 ∈ S.cached c) && decide (r.1 ∈ S.cached f) && !b.isReplacing).map S.field)
          r.1 r.2 b
      else S.field c
  cachedOf : (∀ c, S.cached c = c.forward) ∨ (∀ c, S.cached c = c.reverse)
  lists : ∀ (c : Caches) f r, S.field { c with forward := f, reverse := r } = S.field c
  empty : ∀ f r, S.field { forward := f, reverse := r } = []
  unregister : ∀ c a, S.field (Caches.unregister c a) = AMap.erase (S.field c) a
  absorbField : ∀ c o, S.field (Caches.absorb c o) = extendAbsorbing S.absorb (S.field c) (S.field o)
  growAdd : ∀ m ev, KeysIn m (S.add m ev)
  growRemove : ∀ m ev, KeysIn m (S.remove m ev)
  wfAdd : ∀ m ev, AMap.WF m → AMap.WF (S.add m ev)
  wfRemove : ∀ m ev, AMap.WF m → AMap.WF (S.remove m ev)
  absorbHolds : ∀ m m' e v, AMap.WF m' → KeysIn m m' → (S.holds (S.absorb m m') e v ↔ S.holds m' e v)
  absorbWf : ∀ m m', AMap.WF m → AMap.WF (S.absorb m m')
  holdsNil : ∀ e v, ¬ S.holds [] e v

theorem keysIn_insert {K V : Type} [DecidableEq K] (m : AMap K V) (k : K) (v : V) :
    KeysIn m (AMap.insert m k v) := by
  intro k' h
  rw [AMap.get_insert]
  split <;> simp_all

theorem keysIn_refl {K V : Type} [DecidableEq K] (m : AMap K V) : KeysIn m m := fun _ h => h

theorem KeysIn.trans {K V : Type} [DecidableEq K] {m m' m'' : AMap K V} (h : KeysIn m m')
    (h' : KeysIn m' m'') : KeysIn m m'' := fun k hk => h' k (h k hk)

/-- Folding over distinct keys, each step touching its own key only. -/
theorem foldl_get {K A B : Type} [DecidableEq K] (step : AMap K B → K × A → AMap K B)
    (val : A → Option B → Option B)
    (hs : ∀ m p k, AMap.get (step m p) k = if p.1 = k then val p.2 (AMap.get m k) else AMap.get m k)
    (l : AMap K A) (hw : AMap.WF l) (m : AMap K B) (k : K) :
    AMap.get (l.foldl step m) k = match AMap.get l k with
      | some a => val a (AMap.get m k)
      | none => AMap.get m k := by
  induction l generalizing m with
  | nil => rfl
  | cons p l ih =>
    have hw' : AMap.WF l := by unfold AMap.WF AMap.keys at hw ⊢; exact (List.nodup_cons.mp hw).2
    have hn : p.1 ∉ AMap.keys l := by unfold AMap.WF AMap.keys at hw; exact (List.nodup_cons.mp hw).1
    rw [List.foldl_cons, ih hw']
    obtain ⟨pk, pv⟩ := p
    by_cases hk : pk = k
    · subst hk
      rw [AMap.get_eq_none_iff.mpr hn]
      have : AMap.get ((pk, pv) :: l) pk = some pv := by simp [AMap.get]
      rw [this]
      simp only [hs, if_true]
    · have : AMap.get ((pk, pv) :: l) k = AMap.get l k := by simp [AMap.get, hk]
      rw [this]
      simp only [hs, if_neg hk]

theorem get_absorbOpt {K V : Type} [DecidableEq K] {m o : AMap K (Option V)} (hw : AMap.WF o) (k : K) :
    AMap.get (absorbOpt m o) k = match AMap.get o k with
      | some none => none
      | some (some v) => some (some v)
      | none => AMap.get m k := by
  unfold absorbOpt
  rw [foldl_get (val := fun a _ => a.map some) _ _ _ hw]
  · cases AMap.get o k with
    | none => rfl
    | some x => cases x <;> rfl
  · intro m p k
    obtain ⟨pk, pv⟩ := p
    cases pv with
    | none => simp only [AMap.get_erase, Option.map_none]
    | some v => simp only [AMap.get_insert, Option.map_some]

theorem get_absorbList {K V : Type} [DecidableEq K] {m o : AMap K (List V)} (hw : AMap.WF o) (k : K) :
    AMap.get (absorbList m o) k = match AMap.get o k with
      | some [] => none
      | some (v :: vs) => some (v :: vs)
      | none => AMap.get m k := by
  unfold absorbList
  rw [foldl_get (val := fun a _ => if a.isEmpty then none else some a) _ _ _ hw]
  · cases AMap.get o k with
    | none => rfl
    | some x => cases x <;> rfl
  · intro m p k
    obtain ⟨pk, pv⟩ := p
    cases pv with
    | nil => simp only [List.isEmpty_nil, if_true, AMap.get_erase]
    | cons v vs => simp [AMap.get_insert]

theorem wf_foldl {K A B : Type} [DecidableEq K] (step : AMap K B → K × A → AMap K B)
    (hs : ∀ m p, AMap.WF m → AMap.WF (step m p)) (l : AMap K A) (m : AMap K B) (hm : AMap.WF m) :
    AMap.WF (l.foldl step m) := by
  induction l generalizing m with
  | nil => exact hm
  | cons p l ih => exact ih _ (hs _ _ hm)

theorem wf_absorbOpt {K V : Type} [DecidableEq K] {m o : AMap K (Option V)} (hw : AMap.WF m) :
    AMap.WF (absorbOpt m o) := by
  unfold absorbOpt
  refine wf_foldl _ ?_ _ _ hw
  intro m p hm
  split
  · exact AMap.wf_erase hm _
  · exact AMap.wf_insert hm _ _

theorem wf_absorbList {K V : Type} [DecidableEq K] {m o : AMap K (List V)} (hw : AMap.WF m) :
    AMap.WF (absorbList m o) := by
  unfold absorbList
  refine wf_foldl _ ?_ _ _ hw
  intro m p hm
  split
  · exact AMap.wf_erase hm _
  · exact AMap.wf_insert hm _ _

theorem absorbOpt_holds {K V : Type} [DecidableEq K] {m m' : AMap K (Option V)} (hw : AMap.WF m')
    (hk : KeysIn m m') (k : K) (v : V) :
    AMap.get (absorbOpt m m') k = some (some v) ↔ AMap.get m' k = some (some v) := by
  rw [get_absorbOpt hw]
  cases h : AMap.get m' k with
  | none =>
    have : AMap.get m k = none := by
      cases hm : AMap.get m k with
      | none => rfl
      | some x => exact absurd h (hk k (by simp [hm]))
    simp [this]
  | some x => cases x <;> simp

theorem absorbList_holds {K V : Type} [DecidableEq K] {m m' : AMap K (List V)} (hw : AMap.WF m')
    (hk : KeysIn m m') (k : K) (v : V) :
    (∃ vs, AMap.get (absorbList m m') k = some vs ∧ v ∈ vs) ↔
      ∃ vs, AMap.get m' k = some vs ∧ v ∈ vs := by
  rw [get_absorbList hw]
  cases h : AMap.get m' k with
  | none =>
    have : AMap.get m k = none := by
      cases hm : AMap.get m k with
      | none => rfl
      | some x => exact absurd h (hk k (by simp [hm]))
    simp [this]
  | some x => cases x <;> simp

theorem runEq {c c' : Caches} {fb : Option Caches} {s b r} (h : c.accumulateRun fb s b r = .ok c') :
    ∃ at_, s.attr r.1 = some at_ ∧ c' = { c with
      single := if decide (r.1 ∈ c.forward) && !at_.multival then
          accumEntry SingleVals.set SingleVals.remove c.single
            ((fb.filter fun f => decide (r.1 ∈ c.forward) && decide (r.1 ∈ f.forward) &&
              !b.isReplacing).map (·.single)) r.1 r.2 b
        else c.single
      multi := if decide (r.1 ∈ c.forward) && at_.multival then
          accumEntry MultiVals.acc MultiVals.remove c.multi
            ((fb.filter fun f => decide (r.1 ∈ c.forward) && decide (r.1 ∈ f.forward) &&
              !b.isReplacing).map (·.multi)) r.1 r.2 b
        else c.multi
      unique := if decide (r.1 ∈ c.reverse) && at_.unique.isSome then
          accumEntry UniqueReverse.set UniqueReverse.remove c.unique
            ((fb.filter fun f => decide (r.1 ∈ c.reverse) && decide (r.1 ∈ f.reverse) &&
              !b.isReplacing).map (·.unique)) r.1 r.2 b
        else c.unique
      nonUnique := if decide (r.1 ∈ c.reverse) && !at_.unique.isSome then
          accumEntry NonUniqueReverse.acc NonUniqueReverse.remove c.nonUnique
            ((fb.filter fun f => decide (r.1 ∈ c.reverse) && decide (r.1 ∈ f.reverse) &&
              !b.isReplacing).map (·.nonUnique)) r.1 r.2 b
        else c.nonUnique } := by
  unfold Caches.accumulateRun at h
  cases ha : s.attr r.1 with
  | none => rw [ha] at h; simp at h
  | some at_ =>
    rw [ha] at h
    simp only at h
    split at h
    · simp at h
    · exact ⟨at_, rfl, (Res.ok.inj h).symm⟩

theorem laws_single : sSingle.Laws where
  run h := by
    obtain ⟨at_, ha, rfl⟩ := runEq h
    exact ⟨rfl, rfl, at_, ha, rfl⟩
  cachedOf := Or.inl fun _ => rfl
  lists _ _ _ := rfl
  empty _ _ := rfl
  unregister _ _ := rfl
  absorbField _ _ := rfl
  growAdd m ev := keysIn_insert m _ _
  growRemove m ev := keysIn_insert m _ _
  wfAdd m ev h := AMap.wf_insert h _ _
  wfRemove m ev h := AMap.wf_insert h _ _
  absorbHolds m m' e v hw hk := absorbOpt_holds hw hk e v
  absorbWf _ _ h := wf_absorbOpt h
  holdsNil e v := by simp [sSingle, AMap.get]

theorem laws_unique : sUnique.Laws where
  run h := by
    obtain ⟨at_, ha, rfl⟩ := runEq h
    exact ⟨rfl, rfl, at_, ha, rfl⟩
  cachedOf := Or.inr fun _ => rfl
  lists _ _ _ := rfl
  empty _ _ := rfl
  unregister _ _ := rfl
  absorbField _ _ := rfl
  growAdd m ev := keysIn_insert m _ _
  growRemove m ev := keysIn_insert m _ _
  wfAdd m ev h := AMap.wf_insert h _ _
  wfRemove m ev h := AMap.wf_insert h _ _
  absorbHolds m m' e v hw hk := absorbOpt_holds hw hk v e
  absorbWf _ _ h := wf_absorbOpt h
  holdsNil e v := by simp [sUnique, AMap.get]

theorem laws_multi : sMulti.Laws where
  run h := by
    obtain ⟨at_, ha, rfl⟩ := runEq h
    exact ⟨rfl, rfl, at_, ha, rfl⟩
  cachedOf := Or.inl fun _ => rfl
  lists _ _ _ := rfl
  empty _ _ := rfl
  unregister _ _ := rfl
  absorbField _ _ := rfl
  growAdd m ev := keysIn_insert m _ _
  growRemove m ev := by
    show KeysIn m (MultiVals.remove m ev)
    unfold MultiVals.remove
    split
    · exact keysIn_insert m _ _
    · exact keysIn_refl m
  wfAdd m ev h := AMap.wf_insert h _ _
  wfRemove m ev h := by
    show AMap.WF (MultiVals.remove m ev)
    unfold MultiVals.remove
    split
    · exact AMap.wf_insert h _ _
    · exact h
  absorbHolds m m' e v hw hk := absorbList_holds hw hk e v
  absorbWf _ _ h := wf_absorbList h
  holdsNil e v := by simp [sMulti, AMap.get]

theorem laws_nonUnique : sNonUnique.Laws where
  run h := by
    obtain ⟨at_, ha, rfl⟩ := runEq h
    exact ⟨rfl, rfl, at_, ha, rfl⟩
  cachedOf := Or.inr fun _ => rfl
  lists _ _ _ := rfl
  empty _ _ := rfl
  unregister _ _ := rfl
  absorbField _ _ := rfl
  growAdd m ev := keysIn_insert m _ _
  growRemove m ev := by
    show KeysIn m (NonUniqueReverse.remove m ev)
    unfold NonUniqueReverse.remove
    split
    · exact keysIn_insert m _ _
    · exact keysIn_refl m
  wfAdd m ev h := AMap.wf_insert h _ _
  wfRemove m ev h := by
    show AMap.WF (NonUniqueReverse.remove m ev)
    unfold NonUniqueReverse.remove
    split
    · exact AMap.wf_insert h _ _
    · exact h
  absorbHolds m m' e v hw hk := absorbList_holds hw hk v e
  absorbWf _ _ h := wf_absorbList h
  holdsNil e v := by simp [sNonUnique, AMap.get]

/-! ### Accumulating rows -/

/-- What the slot of attribute `a` means in overlay `o` over `fb`. -/
def Slot.eff {K V : Type} (S : Slot K V) (o : Caches) (fb : Option Caches) (a : Entid) : AMap K V :=
  match AMap.get (S.field o) a with
  | some x => x
  | none => ((fb.filter fun f => decide (a ∈ S.cached o) && decide (a ∈ S.cached f)).bind
      fun f => AMap.get (S.field f) a).getD []

def Slot.op {K V : Type} (S : Slot K V) : Behavior → AMap K V → Entid × TypedValue → AMap K V
  | .add _ => S.add
  | .remove => S.remove

def evsOf (rows : List Aev) (a : Entid) : List (Entid × TypedValue) :=
  (rows.filter fun r => decide (r.1 = a)).map (·.2)

section
variable {K V : Type} [DecidableEq K] {S : Slot K V}

theorem Slot.Laws.lists' (L : S.Laws) {c c' : Caches} (hf : c'.forward = c.forward)
    (hr : c'.reverse = c.reverse) : S.cached c' = S.cached c := by
  rcases L.cachedOf with h | h
  · rw [h, h, hf]
  · rw [h, h, hr]

omit [DecidableEq K] in
theorem startEntry_eq {o : Caches} {fb : Option Caches} {a : Entid} {b : Behavior}
    (hb : b.isReplacing = false) :
    startEntry (S.field o) ((fb.filter fun f => decide (a ∈ S.cached o) &&
      decide (a ∈ S.cached f) && !b.isReplacing).map S.field) a b = S.eff o fb a := by
  unfold startEntry Slot.eff
  rw [if_neg (by simp [hb])]
  cases AMap.get (S.field o) a with
  | some x => rfl
  | none =>
    simp only [hb, Bool.not_false, Bool.and_true]
    cases fb with
    | none => rfl
    | some f =>
      simp only [Option.filter]
      split <;> rfl

theorem run_get (L : S.Laws) {o o' : Caches} {fb : Option Caches} {s b r}
    (h : o.accumulateRun fb s b r = .ok o') (a : Entid) :
    AMap.get (S.field o') a = if r.1 = a ∧ a ∈ S.cached o ∧ (s.attr a).any S.on = true then
        some (r.2.foldl (S.op b) (startEntry (S.field o) ((fb.filter fun f =>
          decide (a ∈ S.cached o) && decide (a ∈ S.cached f) && !b.isReplacing).map S.field) a b))
      else AMap.get (S.field o) a := by
  obtain ⟨hf, hr, at_, hat, heq⟩ := L.run h
  rw [heq]
  by_cases hra : r.1 = a
  · subst hra
    by_cases hc : r.1 ∈ S.cached o ∧ S.on at_ = true
    · rw [if_pos (by simp [hc.1, hc.2]), if_pos ⟨rfl, hc.1, by simp [hat, hc.2]⟩]
      unfold accumEntry
      rw [AMap.get_insert_self]
      cases b <;> rfl
    · rw [if_neg (by simpa using hc), if_neg (by
        rintro ⟨-, h1, h2⟩
        rw [hat] at h2
        exact hc ⟨h1, by simpa using h2⟩)]
  · have hr : (if r.1 = a ∧ a ∈ S.cached o ∧ (s.attr a).any S.on = true then
        some (r.2.foldl (S.op b) (startEntry (S.field o) ((fb.filter fun f =>
          decide (a ∈ S.cached o) && decide (a ∈ S.cached f) && !b.isReplacing).map S.field) a b))
      else AMap.get (S.field o) a) = AMap.get (S.field o) a := if_neg (fun hh => hra hh.1)
    rw [hr]
    split
    · unfold accumEntry
      rw [AMap.get_insert_ne _ _ hra]
    · rfl

theorem run_eff (L : S.Laws) {o o' : Caches} {fb : Option Caches} {s b r}
    (h : o.accumulateRun fb s b r = .ok o') (hb : b.isReplacing = false) {a : Entid} {at_ : Attribute}
    (hat : s.attr a = some at_) (hc : a ∈ S.cached o) (hon : S.on at_ = true) :
    S.eff o' fb a = if r.1 = a then r.2.foldl (S.op b) (S.eff o fb a) else S.eff o fb a := by
  have hg := run_get L h a
  have hcc : S.cached o' = S.cached o := by
    obtain ⟨hf, hr, -⟩ := L.run h
    exact L.lists' hf hr
  split
  · rename_i hra
    rw [if_pos ⟨hra, hc, by simp [hat, hon]⟩, startEntry_eq hb] at hg
    have : S.eff o' fb a = match AMap.get (S.field o') a with
      | some x => x
      | none => ((fb.filter fun f => decide (a ∈ S.cached o') && decide (a ∈ S.cached f)).bind
          fun f => AMap.get (S.field f) a).getD [] := rfl
    rw [this, hg]
  · rename_i hra
    rw [if_neg (fun hh => hra hh.1)] at hg
    unfold Slot.eff
    rw [hg, hcc]

theorem accumulateRuns_eff (L : S.Laws) {fb : Option Caches} {s b} (hb : b.isReplacing = false)
    {a : Entid} {at_ : Attribute} (hat : s.attr a = some at_) (hon : S.on at_ = true) :
    ∀ {rs : List (Entid × List (Entid × TypedValue))} {o o' : Caches},
    Caches.accumulateRuns fb s b rs o = .ok o' → a ∈ S.cached o →
    S.eff o' fb a = ((rs.filter fun r => decide (r.1 = a)).flatMap (·.2)).foldl (S.op b)
      (S.eff o fb a)
  | [], o, o', h, _ => by
    rw [Caches.accumulateRuns] at h
    cases h
    rfl
  | r :: rs, o, o', h, hc => by
    rw [Caches.accumulateRuns] at h
    cases h1 : o.accumulateRun fb s b r with
    | err e => rw [h1] at h; simp [Res.bind] at h
    | panic => rw [h1] at h; simp [Res.bind] at h
    | ok o1 =>
      rw [h1] at h
      have h : Caches.accumulateRuns fb s b rs o1 = .ok o' := h
      obtain ⟨hf, hr, -⟩ := L.run h1
      rw [accumulateRuns_eff L hb hat hon h (by rw [L.lists' hf hr]; exact hc),
        run_eff L h1 hb hat hc hon]
      by_cases hra : r.1 = a
      · simp [hra, List.foldl_append]
      · simp [hra]

/-- A slot that is not cached, or that the attribute does not use, is not touched. -/
theorem accumulateRuns_off (L : S.Laws) {fb : Option Caches} {s b} {a : Entid} :
    ∀ {rs : List (Entid × List (Entid × TypedValue))} {o o' : Caches},
    Caches.accumulateRuns fb s b rs o = .ok o' →
    ¬ (a ∈ S.cached o ∧ (s.attr a).any S.on = true) →
    AMap.get (S.field o') a = AMap.get (S.field o) a
  | [], o, o', h, _ => by
    rw [Caches.accumulateRuns] at h
    cases h
    rfl
  | r :: rs, o, o', h, hc => by
    rw [Caches.accumulateRuns] at h
    cases h1 : o.accumulateRun fb s b r with
    | err e => rw [h1] at h; simp [Res.bind] at h
    | panic => rw [h1] at h; simp [Res.bind] at h
    | ok o1 =>
      rw [h1] at h
      have h : Caches.accumulateRuns fb s b rs o1 = .ok o' := h
      obtain ⟨hf, hr, -⟩ := L.run h1
      rw [accumulateRuns_off L h (by rw [L.lists' hf hr]; exact hc), run_get L h1 a,
        if_neg (fun hh => hc hh.2)]

theorem accumulateRuns_lists {fb : Option Caches} {s b} :
    ∀ {rs : List (Entid × List (Entid × TypedValue))} {o o' : Caches},
    Caches.accumulateRuns fb s b rs o = .ok o' → o'.forward = o.forward ∧ o'.reverse = o.reverse
  | [], o, o', h => by
    rw [Caches.accumulateRuns] at h
    cases h
    exact ⟨rfl, rfl⟩
  | r :: rs, o, o', h => by
    rw [Caches.accumulateRuns] at h
    cases h1 : o.accumulateRun fb s b r with
    | err e => rw [h1] at h; simp [Res.bind] at h
    | panic => rw [h1] at h; simp [Res.bind] at h
    | ok o1 =>
      rw [h1] at h
      have h : Caches.accumulateRuns fb s b rs o1 = .ok o' := h
      obtain ⟨hf, hr, -⟩ := laws_single.run h1
      obtain ⟨hf', hr'⟩ := accumulateRuns_lists h
      exact ⟨hf'.trans hf, hr'.trans hr⟩

theorem runs_evs (rows : List Aev) (a : Entid) :
    ((runs rows).filter fun r => decide (r.1 = a)).flatMap (·.2) = evsOf rows a := by
  induction rows with
  | nil => rfl
  | cons r rows ih =>
    obtain ⟨a', ev⟩ := r
    unfold evsOf at ih ⊢
    rw [runs]
    cases hr : runs rows with
    | nil =>
      rw [hr] at ih
      simp only [List.filter_nil, List.flatMap_nil] at ih
      by_cases h : a' = a
      · simp [h, ← ih]
      · simp [h, ← ih]
    | cons x rest =>
      obtain ⟨b, evs⟩ := x
      rw [hr] at ih
      simp only
      by_cases hab : a' = b
      · subst hab
        rw [if_pos rfl]
        by_cases h : a' = a
        · subst h
          simp only [List.filter_cons, decide_true, if_true, List.flatMap_cons, List.map_cons] at ih ⊢
          rw [← ih]; rfl
        · simp only [List.filter_cons, h, decide_false, Bool.false_eq_true, if_false] at ih ⊢
          exact ih
      · rw [if_neg hab]
        by_cases h : a' = a
        · subst h
          simp only [List.filter_cons, decide_true, if_true, List.flatMap_cons, List.map_cons] at ih ⊢
          rw [← ih]; rfl
        · simp only [List.filter_cons (x := (a', [ev])), List.filter_cons (x := (a', ev)), h,
            decide_false, Bool.false_eq_true, if_false]
          exact ih

theorem accumulate_eff (L : S.Laws) {fb : Option Caches} {s b o o' rows}
    (h : Caches.accumulate o fb s rows b = .ok o') (hb : b.isReplacing = false)
    {a : Entid} {at_ : Attribute} (hat : s.attr a = some at_) (hon : S.on at_ = true)
    (hc : a ∈ S.cached o) :
    S.eff o' fb a = (evsOf rows a).foldl (S.op b) (S.eff o fb a) := by
  rw [accumulateRuns_eff L hb hat hon h hc, runs_evs]

/-! ### What the watcher collects -/

theorem collect_get {p : ProgCache} (shown : List Shown) (m : Collected) (a : Entid) :
    AMap.get (shown.foldl (collect p) m) a =
      match AMap.get m a, (shown.filter fun d => decide (d.a = a)).map fun d => (d.e, d.v) with
      | none, [] => none
      | none, ev :: evs => some (if p.cachedForward a || p.cachedReverse a then some (ev :: evs) else none)
      | some none, _ => some none
      | some (some evs'), evs => some (some (evs' ++ evs)) := by
  induction shown generalizing m with
  | nil =>
    simp only [List.foldl_nil, List.filter_nil, List.map_nil]
    cases AMap.get m a with
    | none => rfl
    | some x => cases x <;> simp
  | cons d shown ih =>
    rw [List.foldl_cons, ih]
    by_cases hd : d.a = a
    · subst hd
      simp only [List.filter_cons, decide_true, if_true, List.map_cons]
      unfold collect
      cases hm : AMap.get m d.a with
      | none =>
        simp only [AMap.get_insert_self]
        by_cases hp : (p.cachedForward d.a || p.cachedReverse d.a) = true
        · simp only [hp, if_true, List.singleton_append]
        · simp only [hp, Bool.false_eq_true, if_false]
      | some x =>
        cases x with
        | none => simp only [hm]
        | some evs => simp only [AMap.get_insert_self, List.append_assoc, List.singleton_append]
    · have : AMap.get (collect p m d) a = AMap.get m a := by
        unfold collect
        split
        · exact AMap.get_insert_ne _ _ hd
        · rfl
        · exact AMap.get_insert_ne _ _ hd
      rw [this]
      simp only [List.filter_cons, hd, decide_false, Bool.false_eq_true, if_false]

theorem collect_wf {p : ProgCache} (shown : List Shown) (m : Collected) (hm : AMap.WF m) :
    AMap.WF (shown.foldl (collect p) m) := by
  induction shown generalizing m with
  | nil => exact hm
  | cons d shown ih =>
    rw [List.foldl_cons]
    apply ih
    unfold collect
    split
    · exact AMap.wf_insert hm _ _
    · exact hm
    · exact AMap.wf_insert hm _ _

theorem flatten_evs {m : Collected} (hw : AMap.WF m) (a : Entid) :
    evsOf (flattenCollected m) a = ((AMap.get m a).join).getD [] := by
  induction m with
  | nil => rfl
  | cons x m ih =>
    obtain ⟨k, evs⟩ := x
    have hw' : AMap.WF m := by unfold AMap.WF AMap.keys at hw ⊢; exact (List.nodup_cons.mp hw).2
    have hn : k ∉ AMap.keys m := by unfold AMap.WF AMap.keys at hw; exact (List.nodup_cons.mp hw).1
    have hsplit : evsOf (flattenCollected ((k, evs) :: m)) a =
        (if k = a then evs.getD [] else []) ++ evsOf (flattenCollected m) a := by
      unfold flattenCollected evsOf
      rw [List.flatMap_cons, List.filter_append, List.map_append]
      congr 1
      cases evs with
      | none => simp
      | some l =>
        simp only [List.filter_map, List.map_map, Option.getD_some]
        by_cases h : k = a
        · simp [h, Function.comp_def]
        · simp [h, Function.comp_def]
    rw [hsplit, ih hw']
    by_cases h : k = a
    · subst h
      rw [AMap.get_eq_none_iff.mpr hn]
      cases evs <;> simp [AMap.get]
    · simp [AMap.get, h]

/-- The pairs shown for attribute `a`. -/
def shownPairs (shown : List Shown) (added : Bool) (a : Entid) : List (Entid × TypedValue) :=
  (shown.filter fun d => decide (d.added = added ∧ d.a = a)).map fun d => (d.e, d.v)

theorem collected_evs {p : ProgCache} (shown : List Shown) (b : Bool) (a : Entid) :
    evsOf (flattenCollected ((shown.filter fun d => decide (d.added = b)).foldl (collect p) [])) a =
      if p.cachedForward a || p.cachedReverse a then shownPairs shown b a else [] := by
  rw [flatten_evs (collect_wf _ _ AMap.wf_nil), collect_get]
  have hl : ((shown.filter fun d => decide (d.added = b)).filter fun d => decide (d.a = a)) =
      shown.filter fun d => decide (d.added = b ∧ d.a = a) := by
    rw [List.filter_filter]
    congr 1
    funext d
    rw [Bool.and_comm, Bool.decide_and]
  rw [hl]
  unfold shownPairs
  cases hp : (shown.filter fun d => decide (d.added = b ∧ d.a = a)).map fun d => (d.e, d.v) with
  | nil => simp [AMap.get]
  | cons x l =>
    simp only [AMap.get]
    split <;> simp

/-- The watcher applies to a cached slot the retractions, then the assertions, it was shown. -/
theorem watch_eff (L : S.Laws) {p p' : ProgCache} {s shown} (h : p.watch s shown = .ok p')
    {a : Entid} {at_ : Attribute} (hat : s.attr a = some at_) (hon : S.on at_ = true)
    (hc : a ∈ S.cached p.overlay) (hv : (p.cachedForward a || p.cachedReverse a) = true) :
    S.eff p'.overlay (some p.inner) a =
      (shownPairs shown true a).foldl S.add ((shownPairs shown false a).foldl S.remove
        (S.eff p.overlay (some p.inner) a)) := by
  have hh : p.hasCached = true := by
    unfold ProgCache.hasCached Caches.hasCached
    rcases L.cachedOf with h1 | h1 <;> rw [h1] at hc
    · cases hl : p.overlay.forward with
      | nil => rw [hl] at hc; simp at hc
      | cons x l => simp
    · cases hl : p.overlay.reverse with
      | nil => rw [hl] at hc; simp at hc
      | cons x l => simp
  unfold ProgCache.watch at h
  rw [hh] at h
  simp only [if_true] at h
  unfold ProgCache.update at h
  cases hu : p.overlay.update (some p.inner) s
      (flattenCollected ((shown.filter fun d => !d.added).foldl (collect p) []))
      (flattenCollected ((shown.filter fun d => d.added).foldl (collect p) [])) with
  | err e => rw [hu] at h; simp [Res.bind] at h
  | panic => rw [hu] at h; simp [Res.bind] at h
  | ok o =>
    rw [hu] at h
    have h : Res.ok { p with overlay := o } = Res.ok p' := h
    obtain rfl := Res.ok.inj h
    unfold Caches.update at hu
    cases h1 : p.overlay.accumulate (some p.inner) s
      (flattenCollected ((shown.filter fun d => !d.added).foldl (collect p) [])) .remove with
    | err e => rw [h1] at hu; simp [Res.bind] at hu
    | panic => rw [h1] at hu; simp [Res.bind] at hu
    | ok o1 =>
      rw [h1] at hu
      have hu : o1.accumulate (some p.inner) s
        (flattenCollected ((shown.filter fun d => d.added).foldl (collect p) [])) (.add false) = .ok o := hu
      obtain ⟨hf, hr⟩ := accumulateRuns_lists h1
      rw [accumulate_eff L hu rfl hat hon (by rw [L.lists' hf hr]; exact hc),
        accumulate_eff L h1 rfl hat hon hc]
      have e1 : (shown.filter fun d => d.added) = shown.filter fun d => decide (d.added = true) := by
        congr 1; funext d; simp
      have e2 : (shown.filter fun d => !d.added) = shown.filter fun d => decide (d.added = false) := by
        congr 1; funext d; cases d.added <;> rfl
      rw [e1, e2, collected_evs, collected_evs, if_pos hv, if_pos hv]
      rfl

/-- A slot that is not cached, or that the attribute does not use, is left alone by the watcher. -/
theorem watch_off (L : S.Laws) {p p' : ProgCache} {s shown} (h : p.watch s shown = .ok p')
    {a : Entid} (hc : ¬ (a ∈ S.cached p.overlay ∧ (s.attr a).any S.on = true)) :
    AMap.get (S.field p'.overlay) a = AMap.get (S.field p.overlay) a := by
  unfold ProgCache.watch ProgCache.update at h
  simp only at h
  generalize (if p.hasCached = true then shown else []) = sh at h
  cases hu : p.overlay.update (some p.inner) s
      (flattenCollected ((sh.filter fun d => !d.added).foldl (collect p) []))
      (flattenCollected ((sh.filter fun d => d.added).foldl (collect p) [])) with
  | err e => rw [hu] at h; simp [Res.bind] at h
  | panic => rw [hu] at h; simp [Res.bind] at h
  | ok o =>
    rw [hu] at h
    have h : Res.ok { p with overlay := o } = Res.ok p' := h
    obtain rfl := Res.ok.inj h
    unfold Caches.update at hu
    cases h1 : p.overlay.accumulate (some p.inner) s
      (flattenCollected ((sh.filter fun d => !d.added).foldl (collect p) [])) .remove with
    | err e => rw [h1] at hu; simp [Res.bind] at hu
    | panic => rw [h1] at hu; simp [Res.bind] at hu
    | ok o1 =>
      rw [h1] at hu
      have hu : o1.accumulate (some p.inner) s
        (flattenCollected ((sh.filter fun d => d.added).foldl (collect p) [])) (.add false) = .ok o := hu
      obtain ⟨hf, hr⟩ := accumulateRuns_lists h1
      rw [accumulateRuns_off L hu (by rw [L.lists' hf hr]; exact hc), accumulateRuns_off L h1 hc]

theorem watch_lists {p p' : ProgCache} {s shown} (h : p.watch s shown = .ok p') :
    p'.inner = p.inner ∧ p'.overlay.forward = p.overlay.forward ∧
    p'.overlay.reverse = p.overlay.reverse ∧ p'.unregForward = p.unregForward ∧
    p'.unregReverse = p.unregReverse := by
  unfold ProgCache.watch ProgCache.update at h
  simp only at h
  generalize (if p.hasCached = true then shown else []) = sh at h
  cases hu : p.overlay.update (some p.inner) s
      (flattenCollected ((sh.filter fun d => !d.added).foldl (collect p) []))
      (flattenCollected ((sh.filter fun d => d.added).foldl (collect p) [])) with
  | err e => rw [hu] at h; simp [Res.bind] at h
  | panic => rw [hu] at h; simp [Res.bind] at h
  | ok o =>
    rw [hu] at h
    have h : Res.ok { p with overlay := o } = Res.ok p' := h
    obtain rfl := Res.ok.inj h
    unfold Caches.update at hu
    cases h1 : p.overlay.accumulate (some p.inner) s
      (flattenCollected ((sh.filter fun d => !d.added).foldl (collect p) [])) .remove with
    | err e => rw [h1] at hu; simp [Res.bind] at hu
    | panic => rw [h1] at hu; simp [Res.bind] at hu
    | ok o1 =>
      rw [h1] at hu
      obtain ⟨hf, hr⟩ := accumulateRuns_lists h1
      obtain ⟨hf', hr'⟩ := accumulateRuns_lists (o := o1) hu
      exact ⟨rfl, hf'.trans hf, hr'.trans hr, rfl, rfl⟩

end

end Mentat
