import Verif.Props.EntitiesKnown
/- C28 for transactions written as entities. -/
namespace Mentat

section
variable {V : Type} [TransactableValue V]

mutual
/-- No attribute of the value's maps is `:ns/_`. -/
def NoBareV : ValuePlace V → Prop
  | .vector vs => NoBareVs vs
  | .map m => NoBareM m
  | .entid _ => True
  | .tempId _ => True
  | .lookupRef _ _ => True
  | .txFunction _ => True
  | .atom _ => True
def NoBareVs : List (ValuePlace V) → Prop
  | [] => True
  | v :: r => NoBareV v ∧ NoBareVs r
def NoBareM : List (EntidOrIdent × ValuePlace V) → Prop
  | [] => True
  | p :: r => NoBareP p ∧ NoBareM r
def NoBareP : EntidOrIdent × ValuePlace V → Prop
  | (a, v) => (∀ ns, a ≠ .ident ⟨ns, ['_']⟩) ∧ NoBareV v
end

/-- No attribute is the lone underscore of a namespace, `:ns/_`. -/
def NoBare : TxEntity V → Prop
  | .addOrRetract _ _ a v => (∀ ns, a ≠ .ident ⟨ns, ['_']⟩) ∧ NoBareV v
  | .map m => NoBareM m

/-- Converting values does not panic. -/
class QuietValues (V : Type) [TransactableValue V] : Prop where
  typed : ∀ (s : Schema) (v : V) t, TransactableValue.intoTypedValue s v t ≠ .panic
  place : ∀ v : V, TransactableValue.intoEntityPlace v ≠ .panic

theorem Res.bind_np {α β : Type} {x : Res α} {f : α → Res β} (h : x ≠ .panic)
    (h' : ∀ a, x = .ok a → f a ≠ .panic) : x.bind f ≠ .panic := by
  cases x with
  | ok a => exact h' a rfl
  | err e => simp [Res.bind]
  | panic => exact absurd rfl h

theorem requireEntid_np (s : Schema) (k) : s.requireEntid k ≠ .panic := by
  unfold Schema.requireEntid; split <;> simp

theorem requireAttr_np (s : Schema) (k) : s.requireAttr k ≠ .panic := by
  unfold Schema.requireAttr; split <;> simp

theorem attribute_np (env : TxEnv) (a) : env.attribute a ≠ .panic := by
  cases a with
  | entid e => simp [TxEnv.attribute]
  | ident k => exact requireEntid_np _ _

theorem unreversed_np {a : EntidOrIdent} (h : ∀ ns, a ≠ .ident ⟨ns, ['_']⟩) : a.unreversed ≠ .panic := by
  cases a with
  | entid e => simp [EntidOrIdent.unreversed]
  | ident k =>
    obtain ⟨ns, name⟩ := k
    simp only [EntidOrIdent.unreversed, Keyword.unreversed]
    cases name with
    | nil => simp
    | cons ch r =>
      by_cases hc : ch = '_'
      · subst hc
        by_cases hr : r = []
        · subst hr; exact absurd rfl (h ns)
        · simp [hr]
      · simp [hc]

variable [QuietValues V]

theorem lookupRef_np (env : TxEnv) (s : Stage1) (a) (v : V) : env.lookupRef s a v ≠ .panic := by
  refine Res.bind_np (attribute_np _ _) fun _ _ => Res.bind_np (requireAttr_np _ _) fun _ _ =>
    Res.bind_np (QuietValues.typed _ _ _) fun _ _ => ?_
  split <;> simp

omit [TransactableValue V] [QuietValues V] in
theorem txFunction_np (env : TxEnv) (f) : env.txFunction f ≠ .panic := by
  unfold TxEnv.txFunction; split <;> simp

theorem termE_np (env : TxEnv) (s : Stage1) (p : EntityPlace V) : env.termE s p ≠ .panic := by
  cases p with
  | entid e => cases e with
    | entid e => simp only [TxEnv.termE]; split <;> simp
    | ident k => exact Res.bind_np (requireEntid_np _ _) (by simp)
  | tempId t => simp [TxEnv.termE]
  | lookupRef a v => exact Res.bind_np (lookupRef_np _ _ _ _) (by simp)
  | txFunction f => exact Res.bind_np (txFunction_np _ _) (by simp)

theorem termVOfE_np (env : TxEnv) (s : Stage1) (p : EntityPlace V) : env.termVOfE s p ≠ .panic :=
  Res.bind_np (termE_np _ _ _) (by simp)

theorem termEOfV_np (env : TxEnv) (s : Stage1) (p : ValuePlace V) (fa) : env.termEOfV s p fa ≠ .panic := by
  refine Res.bind_np (attribute_np _ _) fun _ _ => Res.bind_np (requireAttr_np _ _) fun _ _ => ?_
  split
  · simp
  · cases p with
    | atom v =>
      simp only
      split
      · simp
      · refine Res.bind_np (QuietValues.typed _ _ _) fun v' _ => ?_
        cases v' <;> simp
    | entid e => exact Res.bind_np (attribute_np _ _) (by simp)
    | tempId t => simp
    | lookupRef a v => exact Res.bind_np (lookupRef_np _ _ _ _) (by simp)
    | txFunction f => exact Res.bind_np (txFunction_np _ _) (by simp)
    | vector vs => simp
    | map m => simp

theorem reversedTerm_np (env : TxEnv) (s : Stage1) (e : EntityPlace V) (fa) (v : ValuePlace V) :
    env.reversedTerm s e fa v ≠ .panic :=
  Res.bind_np (termEOfV_np _ _ _ _) fun _ _ => Res.bind_np (attribute_np _ _) fun _ _ =>
    Res.bind_np (termVOfE_np _ _ _) (by simp)

theorem finish_np (env : TxEnv) (s : Stage1) (op) (e : EntityPlace V) (a v) :
    env.finish s op e a v ≠ .panic := Res.bind_np (termE_np _ _ _) (by simp)

omit [TransactableValue V] [QuietValues V] in
theorem noBareVs_iff {vs : List (ValuePlace V)} : NoBareVs vs ↔ ∀ v ∈ vs, NoBareV v := by
  induction vs with
  | nil => simp [NoBareVs]
  | cons v r ih => simp [NoBareVs, ih]

omit [TransactableValue V] [QuietValues V] in
theorem noBareM_iff {m : List (EntidOrIdent × ValuePlace V)} : NoBareM m ↔ ∀ p ∈ m, NoBareP p := by
  induction m with
  | nil => simp [NoBareM]
  | cons v r ih => simp [NoBareM, ih]

theorem removeDbId_np (m : MapNotation V) : removeDbId m ≠ .panic := by
  unfold removeDbId
  split
  · simp
  · rename_i v _
    refine Res.bind_np ?_ (by simp)
    cases v <;> simp [ValuePlace.dbId, QuietValues.place]

omit [QuietValues V] in
theorem removeDbId_rest {m : MapNotation V} {r} (h : removeDbId m = .ok r) : r.2 = m.remove dbIdKey := by
  unfold removeDbId at h
  split at h
  · cases h; rfl
  · rw [Res.bind_ok_iff] at h; obtain ⟨e, -, h⟩ := h; cases h; rfl

theorem nested_np (env : TxEnv) (e : EntityPlace V) (m : MapNotation V) : ∀ (s : Stage1)
    (front : List (TxEntity V)) (d : Bool), (∀ p ∈ m, NoBareP p) → (∀ x ∈ front, NoBare x) →
    env.nested e m s front d ≠ .panic ∧
      ∀ s' front' d', env.nested e m s front d = .ok (s', front', d') → ∀ x ∈ front', NoBare x := by
  induction m with
  | nil =>
    intro s front d _ hf
    refine ⟨by simp [TxEnv.nested], ?_⟩
    intro s' front' d' h; cases h; exact hf
  | cons p r ih =>
    obtain ⟨ia, iv⟩ := p
    intro s front d hm hf
    have hp := hm (ia, iv) (by simp)
    have hr : ∀ p ∈ r, NoBareP p := fun p hp => hm p (List.mem_cons_of_mem _ hp)
    simp only [NoBareP] at hp
    have hf' : ∀ a, ∀ x ∈ (TxEntity.addOrRetract .add e (.entid a) iv :: front), NoBare x := by
      intro a x hx
      rcases List.mem_cons.1 hx with rfl | hx
      · exact ⟨by simp, hp.2⟩
      · exact hf x hx
    constructor
    · refine Res.bind_np (unreversed_np hp.1) fun u _ => ?_
      cases u with
      | some fa => exact Res.bind_np (reversedTerm_np _ _ _ _ _) fun s1 _ => (ih s1 front false hr hf).1
      | none =>
        refine Res.bind_np (attribute_np _ _) fun a _ => Res.bind_np (requireAttr_np _ _) fun at_ _ => ?_
        exact (ih _ _ _ hr (hf' a)).1
    · intro s' front' d' h
      simp only [TxEnv.nested, Res.bind_ok_iff] at h
      obtain ⟨u, -, h⟩ := h
      cases u with
      | some fa =>
        simp only [Res.bind_ok_iff] at h
        obtain ⟨s1, -, h⟩ := h
        exact (ih s1 front false hr hf).2 _ _ _ h
      | none =>
        simp only [Res.bind_ok_iff] at h
        obtain ⟨a, -, at_, -, h⟩ := h
        exact (ih _ _ _ hr (hf' a)).2 _ _ _ h

omit [TransactableValue V] [QuietValues V] in
theorem foldl_front {α : Type} {g : α → TxEntity V} (l : List α) (hl : ∀ x ∈ l, NoBare (g x)) :
    ∀ front : List (TxEntity V), (∀ x ∈ front, NoBare x) →
      ∀ x ∈ l.foldl (fun front x => g x :: front) front, NoBare x := by
  induction l with
  | nil => intro front hf; exact hf
  | cons y r ih =>
    intro front hf
    refine ih (fun x hx => hl x (List.mem_cons_of_mem _ hx)) _ ?_
    intro x hx
    rcases List.mem_cons.1 hx with rfl | hx
    · exact hl y (by simp)
    · exact hf x hx

theorem step_np (env : TxEnv) (s : Stage1) (x : TxEntity V) (hx : NoBare x) :
    env.step s x ≠ .panic ∧ ∀ s' front, env.step s x = .ok (s', front) → ∀ y ∈ front, NoBare y := by
  cases x with
  | map m =>
    have hm := noBareM_iff.1 hx
    refine ⟨Res.bind_np (removeDbId_np _) (by simp), ?_⟩
    intro s' front h
    simp only [TxEnv.step, Res.bind_ok_iff] at h
    obtain ⟨⟨id, m'⟩, h1, h⟩ := h
    have hm' := removeDbId_rest h1
    simp only at hm'
    cases h
    refine foldl_front (g := fun x => TxEntity.addOrRetract .add (s.placeOr id).1 x.1 x.2) m' ?_ [] (by simp)
    intro p hp
    rw [hm'] at hp
    have := hm p (List.mem_filter.1 hp).1
    obtain ⟨a, v⟩ := p
    exact this
  | addOrRetract op e a v =>
    obtain ⟨ha, hv⟩ := hx
    simp only [TxEnv.step]
    cases hu : a.unreversed with
    | panic => exact absurd hu (unreversed_np ha)
    | err e => simp [Res.bind]
    | ok u =>
    simp only [Res.bind]
    cases u with
    | some fa =>
      refine ⟨Res.bind_np (reversedTerm_np _ _ _ _ _) (by simp), ?_⟩
      intro s' front h
      have h : (env.reversedTerm s e fa v).bind (fun s' => .ok (s', [])) = .ok (s', front) := h
      rw [Res.bind_ok_iff] at h
      obtain ⟨s1, -, h⟩ := h; cases h; simp
    | none =>
    simp only
    cases ha' : env.attribute a with
    | panic => exact absurd ha' (attribute_np _ _)
    | err e => simp
    | ok a' =>
    simp only
    cases hat : env.schema.requireAttr a' with
    | panic => exact absurd hat (requireAttr_np _ _)
    | err e => simp
    | ok at_ =>
    simp only
    have fin : ∀ {r : Res (Stage1 × List (TxEntity V))} {s1 : Stage1} {w},
        r = (env.finish s1 op e a' w).bind (fun s' => .ok (s', [])) →
        r ≠ .panic ∧ ∀ s' front, r = .ok (s', front) → ∀ y ∈ front, NoBare y := by
      rintro r s1 w rfl
      refine ⟨Res.bind_np (finish_np _ _ _ _ _ _) (by simp), ?_⟩
      intro s' front h
      rw [Res.bind_ok_iff] at h
      obtain ⟨s2, -, h⟩ := h; cases h; simp
    cases v with
    | atom v =>
      simp only
      split
      · exact fin rfl
      · cases hw : TransactableValue.intoTypedValue env.schema v at_.valueType with
        | panic => exact absurd hw (QuietValues.typed _ _ _)
        | err e => simp
        | ok w => exact fin rfl
    | entid x =>
      simp only
      cases hw : env.attribute x with
      | panic => exact absurd hw (attribute_np _ _)
      | err e => simp
      | ok w => exact fin rfl
    | tempId t => exact fin rfl
    | lookupRef b w =>
      simp only
      split
      · simp
      · cases hw : env.lookupRef s b w with
        | panic => exact absurd hw (lookupRef_np _ _ _ _)
        | err e => simp
        | ok w => exact fin rfl
    | txFunction f =>
      simp only
      cases hw : env.txFunction f with
      | panic => exact absurd hw (txFunction_np _ _)
      | err e => simp
      | ok w =>
        simp only
        split
        · simp
        · exact fin rfl
    | vector vs =>
      simp only
      split
      · simp
      · refine ⟨by simp, ?_⟩
        intro s' front h
        cases h
        refine foldl_front (g := fun x => TxEntity.addOrRetract op e (.entid a') x) vs ?_ [] (by simp)
        intro v hvm
        exact ⟨by simp, noBareVs_iff.1 hv v hvm⟩
    | map m =>
      simp only
      split
      · simp
      split
      · simp
      cases hw : removeDbId m with
      | panic => exact absurd hw (removeDbId_np _)
      | err e => simp
      | ok w =>
      obtain ⟨id, m'⟩ := w
      have hm' := removeDbId_rest hw
      simp only at hm' ⊢
      have hmm : ∀ p ∈ m', NoBareP p := by
        intro p hp
        rw [hm'] at hp
        exact noBareM_iff.1 hv p (List.mem_filter.1 hp).1
      have hn := nested_np env (s.placeOr id).1 m' (s.placeOr id).2 [] (id.isNone && !at_.component) hmm (by simp)
      cases hne : env.nested (s.placeOr id).1 m' (s.placeOr id).2 [] (id.isNone && !at_.component) with
      | panic => exact absurd hne hn.1
      | err e => simp
      | ok w =>
      obtain ⟨s1, front1, d⟩ := w
      have hf := hn.2 _ _ _ hne
      simp only
      split
      · simp
      · change (env.termVOfE s1 (s.placeOr id).1).bind _ ≠ .panic ∧ _
        refine ⟨Res.bind_np (termVOfE_np _ _ _) fun _ _ => Res.bind_np (finish_np _ _ _ _ _ _) (by simp), ?_⟩
        intro s' front h
        have h : (env.termVOfE s1 (s.placeOr id).1).bind (fun x => (env.finish x.2 op e a' x.1).bind
          fun s' => .ok (s', front1)) = .ok (s', front) := h
        simp only [Res.bind_ok_iff] at h
        obtain ⟨_, -, _, -, h⟩ := h
        cases h; exact hf

theorem loop_np (env : TxEnv) (n : Nat) : ∀ (es : List (TxEntity V)) (s : Stage1), (∀ x ∈ es, NoBare x) →
    env.loop n es s ≠ .panic := by
  induction n with
  | zero => intro es s _; cases es <;> simp [TxEnv.loop]
  | succ n ih =>
    intro es s h
    cases es with
    | nil => simp [TxEnv.loop]
    | cons x r =>
      obtain ⟨h1, h2⟩ := step_np env s x (h x (by simp))
      refine Res.bind_np h1 fun p hp => ih _ _ ?_
      intro y hy
      rcases List.mem_append.1 hy with hy | hy
      · exact h2 p.1 p.2 hp y hy
      · exact h y (List.mem_cons_of_mem _ hy)

/-- C28, first stage: reading the entities of a transaction panics at most on an attribute
`:ns/_`. -/
theorem C28_stage1_partial (env : TxEnv) (es : List (TxEntity V)) (h : ∀ x ∈ es, NoBare x) :
    env.stage1 es ≠ .panic := loop_np env _ es {} h

end

theorem attributePlace_np (x : Edn) : x.attributePlace ≠ .panic := by
  unfold Edn.attributePlace
  split
  · simp
  · split <;> simp
  · simp

instance : QuietValues Edn where
  typed := by
    intro s v t h
    change s.toTypedValue v t = .panic at h
    unfold Schema.toTypedValue at h
    split at h
    · cases h
    · split at h <;> first | cases h | skip
      exact Res.bind_np (requireEntid_np _ _) (by simp) h
  place := by
    intro v h
    change v.intoEntityPlace = .panic at h
    unfold Edn.intoEntityPlace at h
    split at h
    · cases h
    · split at h <;> cases h
    · cases h
    · cases h
    · split at h
      · exact Res.bind_np (attributePlace_np _) (by simp) h
      · cases h
    · cases h

instance : QuietValues TypedValue where
  typed := by
    intro s v t
    simp only [TransactableValue.intoTypedValue]
    split <;> simp
  place := by
    intro v
    simp only [TransactableValue.intoEntityPlace]
    split <;> simp

/-- Resolving lookup refs does not panic. -/
theorem resolveLookupRefs_np (st : Store) (ts : List LTerm) : resolveLookupRefs st ts ≠ .panic := by
  have rep : ∀ {α : Type} {lift : Entid → α} {x}, replaceLookupRef st lift x ≠ .panic := by
    intro α lift x
    cases x with
    | inl z => simp [replaceLookupRef]
    | inr l => cases l with
      | tempId t => simp [replaceLookupRef]
      | lookupRef a v => simp only [replaceLookupRef]; split <;> simp
  induction ts with
  | nil => simp [resolveLookupRefs]
  | cons x r ih =>
    exact Res.bind_np rep fun _ _ => Res.bind_np rep fun _ _ => Res.bind_np ih (by simp)

/-- C28 for transactions written as entities, under the conditions of `C28_no_panic_partial` on the
terms they stand for, and without `:ns/_`. -/
theorem C28_entities_partial {V : Type} [TransactableValue V] [QuietValues V] {db : Db} {now : Int}
    {es : List (TxEntity V)} (hr : ReachKept db) (hb : ∀ x ∈ es, NoBare x)
    (hroom2 : db.parts.tx.next < db.parts.tx.fin)
    (hti : ∀ at_, db.schema.attr DB_TX_INSTANT = some at_ → at_.multival = false)
    (hident : ∀ at_, db.schema.attr DB_IDENT = some at_ → at_.valueType = .keyword)
    (hindex : ∀ a at_, db.schema.attr a = some at_ → at_.unique = some .identity → at_.index = true)
    (hrest : ∀ s terms, (startEnv db).stage1 es = .ok s → resolveLookupRefs db.store s.terms = .ok terms →
      db.parts.user.next + (s.tempIds.length : Int) ≤ db.parts.user.fin ∧
      ∀ t1 a t2 n1 n2, (⟨.add, .inr t1, a, .inr t2⟩ : TTerm) ∈ terms → IsIdentity db.schema a →
        Upserts db.schema db.store.rows terms t1 n1 → Upserts db.schema db.store.rows terms t2 n2 →
        ∃ n, Has db.store.rows n a (.ref n2)) :
    transactEntities db now es ≠ .panic := by
  unfold transactEntities
  refine Res.bind_np ?_ fun x hx => ?_
  · have hp := (histInv_reach hr.reach).parts.tx
    simp only [Partition.allocate, Partition.setNext]
    split
    · simp
    · simp
    · rename_i h
      split at h
      · cases h
      · rename_i hn
        exfalso; apply hn
        simp only [Partition.allowsEntid, decide_eq_true_eq]
        have := hp
        omega
  · obtain ⟨n, p'⟩ := x
    obtain ⟨rfl, rfl⟩ := allocate_one hx
    change ((startEnv db).stage1 es).bind _ ≠ .panic
    refine Res.bind_np (C28_stage1_partial _ _ hb) fun s hs =>
      Res.bind_np (resolveLookupRefs_np _ _) fun terms ht => ?_
    obtain ⟨h1, h2⟩ := hrest s terms hs ht
    exact C28_no_panic_partial hr (entities_terms hr.reach hs ht).1 h1 hroom2 hti hident hindex h2

/-- Full C28 fails on `[:db/add "t" :x/_ 1]` (`unreversed` asserts that the name is not empty). -/
theorem C28_fails_bare : ∃ db, ReachKept db ∧ transactEntities db 0
    [(.addOrRetract .add (.tempId (tid "t")) (.ident (kw "x" "_")) (.atom (.integer 1)) : TxEntity Edn)] =
      .panic :=
  ⟨setupDb, reachKept_setup, by decide +kernel⟩

end Mentat
