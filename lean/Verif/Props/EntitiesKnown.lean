import Verif.Props.Entities
import Verif.Proofs.Idents
/-
C67: entities named in a transaction exist.  The link between transactions written as entities and
the term-level theorems.
-/
namespace Mentat
section
variable {V : Type} [TransactableValue V]

/-- The values of reversed assertions name allocated entities. -/
def KnownReversed (db : Db) (xs : List (TxEntity V)) : Prop :=
  ∀ op e a v, TxEntity.addOrRetract op e a v ∈ xs → Backward a = true →
    ∀ at_ n, ValueMeans (startEnv db) at_ v (.inl (.ref n)) → (startEnv db).parts.containsEntid n = true

theorem startEnv_contains {db : Db} {n : Entid} (h : (startEnv db).parts.containsEntid n = true) :
    db.parts.containsEntid n = true ∨ n = db.parts.tx.next := by
  simp only [startEnv, Parts.containsEntid, Bool.or_eq_true] at h ⊢
  rcases h with (h | h) | h
  · exact Or.inl (Or.inl (Or.inl h))
  · exact Or.inl (Or.inl (Or.inr h))
  · have h := of_decide_eq_true h
    dsimp only at h
    by_cases hn : n = db.parts.tx.next
    · exact Or.inr hn
    · exact Or.inl (Or.inr (decide_eq_true ⟨h.1, by omega⟩))

theorem place_known {db : Db} (hr : Reach db) {p : EntityPlace V} {n}
    (h : PlaceMeans (startEnv db) p (.inl n)) :
    db.parts.containsEntid n = true ∨ n = db.parts.tx.next := by
  cases p with
  | entid e =>
    cases e with
    | entid e => obtain ⟨h1, h2⟩ := h; cases h2; exact startEnv_contains h1
    | ident k => obtain ⟨m, h1, h2⟩ := h; cases h2; exact Or.inl (ident_allocated hr h1)
  | tempId t => cases h
  | lookupRef a v => obtain ⟨l, -, h⟩ := h; cases h
  | txFunction f => obtain ⟨-, h⟩ := h; cases h; exact Or.inr rfl

theorem means_known {db : Db} (hr : Reach db) {x : TxEntity V} {t : LTerm} {n}
    (h : Means (startEnv db) (codeOp x) t) (hk : KnownReversed db [x]) (he : t.e = .inl n) :
    db.parts.containsEntid n = true ∨ n = db.parts.tx.next := by
  cases x with
  | map m => exact h.elim
  | addOrRetract op e a v =>
    obtain ⟨-, ⟨-, at_, -, -, h3, -⟩ | ⟨fa, at_, y, hu, -, -, -, h3, -⟩⟩ := h
    · rw [he] at h3; exact place_known hr h3
    · rw [he] at h3
      exact startEnv_contains (hk op e a v (by simp) (unreversed_backward hu) at_ n h3)

theorem stage1_interned {env : TxEnv} {es : List (TxEntity V)} {s} (h : env.stage1 es = .ok s) :
    List.Forall₂ (Means env) ((flattenAll 0 es).1.map codeOp) s.terms ∧ s.tempIds.Nodup ∧
      ∀ i, i ∈ s.tempIds ↔ MentionsId s.terms i := by
  obtain ⟨-, u, hu, h2, h3, -⟩ := (C30_flat env es s.terms s.tempIds s.lookupRefs).1 ⟨s, h, rfl, rfl, rfl⟩
  rw [stage1_eq] at hu
  obtain ⟨ts', hts, had⟩ := run_means (C30_is_flat es) hu
  have ht := had.terms
  simp only [List.nil_append] at ht
  rw [← h2, ht, ← h3]
  refine ⟨hts, had.nodup List.nodup_nil, fun i => ?_⟩
  rw [had.ids]; simp

theorem forall2_mem {α β : Type} {R : α → β → Prop} {l : List α} {m : List β} (h : List.Forall₂ R l m)
    {b} (hb : b ∈ m) : ∃ a ∈ l, R a b := by
  induction h with
  | nil => cases hb
  | cons hd tl ih =>
    rcases List.mem_cons.1 hb with rfl | hb
    · exact ⟨_, List.mem_cons_self, hd⟩
    · obtain ⟨a, ha, hr⟩ := ih hb; exact ⟨a, List.mem_cons_of_mem _ ha, hr⟩

theorem forall2_mem_left {α β : Type} {R : α → β → Prop} {l : List α} {m : List β} (h : List.Forall₂ R l m)
    {a} (ha : a ∈ l) : ∃ b ∈ m, R a b := by
  induction h with
  | nil => cases ha
  | cons hd tl ih =>
    rcases List.mem_cons.1 ha with rfl | ha
    · exact ⟨_, List.mem_cons_self, hd⟩
    · obtain ⟨b, hb, hr⟩ := ih ha; exact ⟨b, List.mem_cons_of_mem _ hb, hr⟩

/-- A transaction written as entities reaches the transactor as interned terms about known
entities. -/
theorem entities_terms {db : Db} (hr : Reach db) {es : List (TxEntity V)} {s terms}
    (hs : (startEnv db).stage1 es = .ok s) (ht : resolveLookupRefs db.store s.terms = .ok terms) :
    Interned terms s.tempIds ∧ (KnownReversed db (flattenAll 0 es).1 → KnownTerms db terms) := by
  obtain ⟨hm, hn, hi⟩ := stage1_interned hs
  have hres := C29_resolves ht
  refine ⟨⟨hn, fun i => (hi i).trans ?_⟩, ?_⟩
  · constructor
    · rintro ⟨t, htm, h⟩
      obtain ⟨y, hy, -, -, h1, h2⟩ := forall2_mem_left hres htm
      refine ⟨y, hy, ?_⟩
      rcases h with h | h
      · rw [h] at h1; exact Or.inl h1
      · rw [h] at h2; exact Or.inr h2
    · rintro ⟨y, hy, h⟩
      obtain ⟨t, htm, -, -, h1, h2⟩ := forall2_mem hres hy
      refine ⟨t, htm, ?_⟩
      have inv : ∀ {α : Type} {lift : Entid → α} {x : Sum α LookupRefOrTempId} {y : Sum α TempId},
          ResolvesTo db.store.rows lift x y → y = .inr i → x = .inr (.tempId i) := by
        intro α lift x y h hy
        cases x with
        | inl z => rw [h] at hy; cases hy
        | inr l => cases l with
          | tempId t => rw [h] at hy; cases hy; rfl
          | lookupRef a v => obtain ⟨n, -, rfl⟩ := h; cases hy
      rcases h with h | h
      · exact Or.inl (inv h1 h)
      · exact Or.inr (inv h2 h)
  · intro hk y hy n hye
    obtain ⟨t, htm, -, -, h1, -⟩ := forall2_mem hres hy
    rw [hye] at h1
    cases hte : t.e with
    | inl z =>
      rw [hte] at h1
      cases h1
      obtain ⟨x, hx, hmx⟩ := forall2_mem hm htm
      obtain ⟨x, hx', rfl⟩ := List.mem_map.1 hx
      refine means_known hr hmx ?_ hte
      intro op e a v hm'
      rw [List.mem_singleton] at hm'
      exact hk op e a v (hm' ▸ hx')
    | inr l =>
      rw [hte] at h1
      cases l with
      | tempId i => cases h1
      | lookupRef a v =>
        obtain ⟨m, hm', h⟩ := h1
        cases h
        obtain ⟨l, hl, rfl, -⟩ := has_rows_log (histInv_reach hr).replay hm'
        exact Or.inl ((histInv_reach hr).logE l hl)

/-- Transactions written as entities are transactions in the sense of `Transacts`, so that every
theorem about reachable stores applies to them. -/
theorem transacts_of_entities {db db' : Db} {now : Int} {es : List (TxEntity V)} {rep} (hr : Reach db)
    (hk : KnownReversed db (flattenAll 0 es).1) (h : transactEntities db now es = .ok (db', rep)) :
    Transacts db db' := by
  obtain ⟨-, s, terms, hs, ht, h⟩ := transactEntities_ok.1 h
  exact ⟨now, terms, s.tempIds, rep, (entities_terms hr hs ht).2 hk, h⟩

/-- C67, except for the values of reversed attributes: whatever the notation, every entity that has
a datom after the transaction is allocated. -/
theorem C67_allocated_partial {db db' : Db} {now : Int} {es : List (TxEntity V)} {rep} (hr : Reach db)
    (hk : KnownReversed db (flattenAll 0 es).1) (h : transactEntities db now es = .ok (db', rep)) :
    ∀ r ∈ db'.store.rows, db'.parts.containsEntid r.e = true := by
  have hr' : Reach db' := .step hr (transacts_of_entities hr hk h)
  intro r hm
  obtain ⟨l, hl, he, -⟩ := has_rows_log (histInv_reach hr').replay (e := r.e) (a := r.a) (v := r.v)
    ⟨r, hm, rfl, rfl, rfl⟩
  rw [← he]
  exact (histInv_reach hr').logE l hl

end

/-- `{:db/id 65540 :x/_r 65542}` -/
def strayTx : List (TxEntity Edn) :=
  [.map [(dbIdKey, .atom (.integer 65540)), (.ident (kw "x" "_r"), .atom (.integer 65542))]]

/-- Full C67 fails (tx.rs:387-412 does not call `ensure_entid_exists` on the value of a reversed
attribute): entity 65542 gets a datom before it is allocated, and the next transaction hands out
65542 as a new entity. -/
theorem C67_fails : ∃ db db1 rep1 db2 rep2, ReachKept db ∧ transactEntities db 0 strayTx = .ok (db1, rep1) ∧
    Has db1.store.rows 65542 65539 (.ref 65540) ∧ db1.parts.containsEntid 65542 = false ∧
    transactTerms db1 0 [addT "new" xId (str "new")] [tid "new"] = .ok (db2, rep2) ∧
    AMap.get rep2.tempids "new".toList = some 65542 := by
  obtain ⟨db, h, hp⟩ := reachKept_of_setup (txs := refTxs) (p := fun db =>
    match transactEntities db 0 strayTx with
    | .ok (db1, _) => hasB db1 65542 65539 (.ref 65540) && !db1.parts.containsEntid 65542 &&
      match transactTerms db1 0 [addT "new" xId (str "new")] [tid "new"] with
      | .ok (_, rep2) => decide (AMap.get rep2.tempids "new".toList = some 65542)
      | _ => false
    | _ => false) (by decide +kernel)
  split at hp
  · rename_i db1 rep1 h1
    simp only [Bool.and_eq_true, Bool.not_eq_true', hasB_iff] at hp
    obtain ⟨⟨hh, hc⟩, hp⟩ := hp
    split at hp
    · rename_i db2 rep2 h2
      exact ⟨db, db1, rep1, db2, rep2, h, h1, hh, hc, h2, by simpa using hp⟩
    · simp at hp
  · simp at hp

/-- The hypotheses of the partial theorem are met by the nested map of `C30_example`: the reversed
value is a lookup ref. -/
theorem C67_example (db : Db) : KnownReversed db (flattenAll 0 nestedTx).1 := by
  intro op e a v hm hb at_ n hv
  have hf : (flattenAll 0 nestedTx).1 =
    [.addOrRetract .add (.tempId (.internal 1)) (.ident (kw "x" "_r"))
       (.lookupRef (.ident (kw "x" "id")) (.text "m".toList)),
     .addOrRetract .add (.tempId (.internal 1)) (.ident (kw "x" "r")) (.tempId (.internal 2)),
     .addOrRetract .add (.tempId (.internal 2)) (.ident (kw "x" "one")) (.atom (.text "v".toList)),
     .addOrRetract .add (.tempId (.internal 2)) (.ident (kw "x" "id")) (.atom (.text "k".toList)),
     .addOrRetract .add (.tempId (.internal 1)) (.ident (kw "x" "many")) (.atom (.integer 2)),
     .addOrRetract .add (.tempId (.internal 1)) (.ident (kw "x" "many")) (.atom (.integer 1)),
     .addOrRetract .add (.tempId (.internal 1)) (.ident (kw "x" "id")) (.atom (.text "new".toList))] := rfl
  rw [hf] at hm
  simp only [List.mem_cons, TxEntity.addOrRetract.injEq, List.not_mem_nil, or_false] at hm
  rcases hm with ⟨-, -, rfl, rfl⟩ | ⟨-, -, rfl, -⟩ | ⟨-, -, rfl, -⟩ | ⟨-, -, rfl, -⟩ | ⟨-, -, rfl, -⟩ |
    ⟨-, -, rfl, -⟩ | ⟨-, -, rfl, -⟩
  · obtain ⟨-, l, -, h⟩ := hv; cases h
  all_goals exact absurd hb (by decide)

end Mentat
