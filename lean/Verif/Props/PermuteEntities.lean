import Verif.Props.Permute
import Verif.Props.Entities
/-
C65 for transactions as they are given: the order of entities, with vectors and maps, lookup refs and
reversed attributes.
-/
namespace Mentat

section
variable {V : Type} [TransactableValue V]

/-- No map in the entity is without `:db/id`. -/
def AllNamed (x : TxEntity V) : Prop := (flattenEntity 0 x).2 = 0

theorem flattenAll_named : ∀ {es : List (TxEntity V)}, (∀ x ∈ es, AllNamed x) →
    flattenAll 0 es = (es.flatMap fun x => (flattenEntity 0 x).1, 0)
  | [], _ => rfl
  | x :: r, h => by
    have hx : (flattenEntity 0 x).2 = 0 := h x (by simp)
    rw [flattenAll_cons, hx, flattenAll_named fun y hy => h y (by simp [hy])]
    simp

omit [TransactableValue V] in
theorem forall2_perm {α β : Type} {R : α → β → Prop} {xs ys : List α} (h : xs.Perm ys) :
    ∀ {ts : List β}, List.Forall₂ R xs ts → ∃ us, ts.Perm us ∧ List.Forall₂ R ys us := by
  induction h with
  | nil => intro ts h; exact ⟨ts, .refl _, h⟩
  | cons x _ ih =>
    intro ts h
    cases h with
    | cons hd tl =>
      obtain ⟨us, h1, h2⟩ := ih tl
      exact ⟨_, h1.cons _, .cons hd h2⟩
  | swap x y l =>
    intro ts h
    cases h with
    | cons hd tl =>
      cases tl with
      | cons hd' tl' => exact ⟨_, .swap .., .cons hd' (.cons hd tl')⟩
  | trans _ _ ih1 ih2 =>
    intro ts h
    obtain ⟨us, h1, h2⟩ := ih1 h
    obtain ⟨vs, h3, h4⟩ := ih2 h2
    exact ⟨vs, h1.trans h3, h4⟩

theorem resolve_perm {st : Store} {ts us : List LTerm} (h : ts.Perm us) :
    ∀ {r}, resolveLookupRefs st ts = .ok r → ∃ r', resolveLookupRefs st us = .ok r' ∧ r.Perm r' := by
  have cons : ∀ (x : LTerm) (l : List LTerm) (r), resolveLookupRefs st (x :: l) = .ok r ↔
      ∃ e v r', replaceLookupRef st id x.e = .ok e ∧ replaceLookupRef st .ref x.v = .ok v ∧
        resolveLookupRefs st l = .ok r' ∧ r = ⟨x.op, e, x.a, v⟩ :: r' := by
    intro x l r
    simp only [resolveLookupRefs, Res.bind_ok_iff, Res.ok.injEq]
    constructor
    · rintro ⟨e, h1, v, h2, r', h3, rfl⟩; exact ⟨e, v, r', h1, h2, h3, rfl⟩
    · rintro ⟨e, v, r', h1, h2, h3, rfl⟩; exact ⟨e, h1, v, h2, r', h3, rfl⟩
  induction h with
  | nil => intro r h; exact ⟨r, h, .refl _⟩
  | cons x _ ih =>
    intro r h
    obtain ⟨e, v, r', h1, h2, h3, rfl⟩ := (cons ..).1 h
    obtain ⟨r'', h4, h5⟩ := ih h3
    exact ⟨_, (cons ..).2 ⟨e, v, r'', h1, h2, h4, rfl⟩, h5.cons _⟩
  | swap x y l =>
    intro r h
    obtain ⟨e, v, r', h1, h2, h3, rfl⟩ := (cons ..).1 h
    obtain ⟨e', v', r'', h1', h2', h3', rfl⟩ := (cons ..).1 h3
    exact ⟨_, (cons ..).2 ⟨e', v', _, h1', h2', (cons ..).2 ⟨e, v, r'', h1, h2, h3', rfl⟩, rfl⟩, .swap ..⟩
  | trans _ _ ih1 ih2 =>
    intro r h
    obtain ⟨r1, h1, p1⟩ := ih1 h
    obtain ⟨r2, h2, p2⟩ := ih2 h1
    exact ⟨r2, h2, p1.trans p2⟩

/-- Stage 1 of permuted assertions: permuted terms, the same tempids. -/
theorem stage1_perm {env : TxEnv} {xs ys : List (TxEntity V)} (h : xs.Perm ys) (hx : ∀ x ∈ xs, Flat x) {s : Stage1}
    (hs : env.stage1 xs = .ok s) : ∃ s', env.stage1 ys = .ok s' ∧ s.terms.Perm s'.terms ∧ s.tempIds.Perm s'.tempIds := by
  rw [stage1_eq] at hs
  obtain ⟨ts, h1, had⟩ := run_means hx hs
  obtain ⟨us, hp, h2⟩ := forall2_perm (h.map codeOp) h1
  obtain ⟨s', hs'⟩ := run_of_means h2 {}
  obtain ⟨us', h2', had'⟩ := run_means (fun y hy => hx y (h.mem_iff.2 hy)) hs'
  obtain rfl := forall2_means_inj h2 h2'
  refine ⟨s', by rw [stage1_eq]; exact hs', ?_, ?_⟩
  · rw [had.terms, had'.terms]; exact hp.append_left _
  · refine (List.perm_ext_iff_of_nodup (had.nodup List.nodup_nil) (had'.nodup List.nodup_nil)).2 fun i => ?_
    rw [had.ids, had'.ids]
    have : MentionsId ts i ↔ MentionsId us i := by
      simp only [MentionsId, hp.mem_iff]
    rw [this]

theorem same_refused {r r' : Res (Db × Report)} (h : ∀ p, r = .ok p → ∃ p', r' = .ok p' ∧ SameDb p.1 p'.1 ∧ SameReport p.2 p'.2)
    (h' : ∀ p, r' = .ok p → ∃ p', r = .ok p') : SameOutcome r r' := by
  by_cases hr : ∃ p, r = .ok p
  · obtain ⟨p, hr⟩ := hr
    obtain ⟨p', h1, h2, h3⟩ := h p hr
    exact .inl ⟨_, _, _, _, hr, h1, h2, h3⟩
  · exact .inr ⟨fun p hp => hr ⟨p, hp⟩, fun p hp => hr (h' p hp)⟩

/-- C65 for a transaction as it is given: permuting its entities gives the same outcome, if every map has a `:db/id`.
(`hm`: the attributes that describe attributes have cardinality one, as they are bootstrapped.) -/
theorem C65_entities_partial {db : Db} {now : Int} {es es' : List (TxEntity V)} (hr : ReachKept db)
    (hm : ∀ a ∈ metadataList, ∀ at_, db.schema.attr a = some at_ → at_.multival = false)
    (hn : ∀ x ∈ es, AllNamed x) (hp : es.Perm es') :
    SameOutcome (transactEntities db now es) (transactEntities db now es') := by
  have key : ∀ {es es' : List (TxEntity V)}, (∀ x ∈ es, AllNamed x) → es.Perm es' → ∀ p, transactEntities db now es = .ok p →
      ∃ p', transactEntities db now es' = .ok p' ∧ SameDb p.1 p'.1 ∧ SameReport p.2 p'.2 := by
    intro es es' hn hp p h
    have hn' : ∀ x ∈ es', AllNamed x := fun x hx => hn x (hp.mem_iff.2 hx)
    obtain ⟨hpl, h⟩ := (C30_transact db now es p).1 h
    obtain ⟨ha, s, terms, h1, h2, h3⟩ := transactEntities_ok.1 h
    have hpf : (flattenAll 0 es).1.Perm (flattenAll 0 es').1 := by
      rw [flattenAll_named hn, flattenAll_named hn']
      exact hp.flatMap_right _
    obtain ⟨s', h1', hpt, hpi⟩ := stage1_perm hpf (C30_is_flat es) h1
    obtain ⟨terms', h2', hpr⟩ := resolve_perm hpt h2
    rcases C65_order_partial (now := now) hr (fun a ha => .inl (hm a ha)) hpr hpi with ⟨d1, r1, d2, r2, g1, g2, g3, g4⟩ | ⟨g1, -⟩
    · rw [h3] at g1
      cases g1
      exact ⟨(d2, r2), (C30_transact db now es' _).2 ⟨fun x hx => hpl x (hp.mem_iff.2 hx),
        transactEntities_ok.2 ⟨ha, s', terms', h1', h2', g2⟩⟩, g3, g4⟩
    · exact absurd h3 (g1 p)
  refine same_refused (key hn hp) fun p h => ?_
  obtain ⟨p', h, -⟩ := key (fun x hx => hn x (hp.mem_iff.2 hx)) hp.symm p h
  exact ⟨p', h⟩

end

/-- A map with a vector, about a new entity, an entity by lookup ref, and a retraction. -/
def mixedEntities : List (TxEntity TypedValue) :=
  [.map [(.ident ⟨"db".toList, "id".toList⟩, .tempId (.external "n".toList)), (.ident (kw "x" "one"), .atom (str "q")),
      (.ident (kw "x" "many"), .vector [.atom (.long 3), .atom (.long 4)])],
    .addOrRetract .add (.lookupRef (.ident (kw "x" "id")) (str "k")) (.ident (kw "x" "one")) (.atom (str "z")),
    .addOrRetract .retract (.entid (.entid e1)) (.ident (kw "x" "many")) (.atom (.long 1))]

/-- The hypotheses of `C65_entities_partial` hold of transactions that are accepted. -/
theorem C65_entities_example : ∃ db, ReachKept db ∧
    (∀ a ∈ metadataList, ∀ at_, db.schema.attr a = some at_ → at_.multival = false) ∧
    (∀ x ∈ mixedEntities, AllNamed x) ∧ (∃ p, transactEntities db 0 mixedEntities = .ok p) ∧
    SameOutcome (transactEntities db 0 mixedEntities) (transactEntities db 0 mixedEntities.reverse) := by
  obtain ⟨db, h, hp⟩ := reachKept_of_setup (txs := [dataTx]) (p := fun db =>
    metaOneB db.schema && (match transactEntities db 0 mixedEntities with | .ok _ => true | _ => false)) (by decide +kernel)
  simp only [Bool.and_eq_true] at hp
  obtain ⟨hk, hp⟩ := hp
  have hm : ∀ a ∈ metadataList, ∀ at_, db.schema.attr a = some at_ → at_.multival = false := by
    intro a ha at_ hat
    have := List.all_eq_true.1 hk a ha
    rw [hat] at this
    simpa using this
  have hn : ∀ x ∈ mixedEntities, AllNamed x := by
    unfold AllNamed
    decide +kernel
  refine ⟨db, h, hm, hn, ?_, C65_entities_partial h hm hn (List.reverse_perm _).symm⟩
  split at hp
  · next p hq => exact ⟨p, hq⟩
  · cases hp

/-- Two maps without `:db/id`. -/
def anonymousMaps : List (TxEntity TypedValue) :=
  [.map [(.ident (kw "x" "one"), .atom (str "p"))], .map [(.ident (kw "x" "one"), .atom (str "q"))]]

/-- C65 is false of maps without `:db/id`: which of two new entities gets which id depends on the order. -/
theorem C65_fails_anonymous : ∃ db, ReachKept db ∧
    ¬ SameOutcome (transactEntities db 0 anonymousMaps) (transactEntities db 0 anonymousMaps.reverse) := by
  obtain ⟨db, h, hp⟩ := reachKept_of_setup (txs := [dataTx]) (p := fun db =>
    match transactEntities db 0 anonymousMaps, transactEntities db 0 anonymousMaps.reverse with
    | .ok (db1, _), .ok (db2, _) => db1.store.rows.any fun r => decide (r ∉ db2.store.rows)
    | _, _ => false) (by decide +kernel)
  refine ⟨db, h, ?_⟩
  split at hp
  · next db1 _ db2 _ h1 h2 =>
    rintro (⟨d1, r1, d2, r2, g1, g2, g3, -⟩ | ⟨g1, -⟩)
    · rw [h1] at g1
      rw [h2] at g2
      cases g1
      cases g2
      obtain ⟨r, hr, hn⟩ := List.any_eq_true.1 hp
      exact (of_decide_eq_true hn) (g3.store.rows.mem_iff.1 hr)
    · exact g1 _ h1
  · cases hp

end Mentat
