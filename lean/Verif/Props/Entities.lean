import Verif.Proofs.Entities
import Verif.Proofs.HistoryRows
import Verif.Proofs.Examples
import Verif.Props.NoPanic
import Verif.Props.Tempids
/-
C29 (lookup refs), C30 (map notation), C31 (reversed attributes) and C66 (coercion).
-/
namespace Mentat

section
variable {V : Type} [TransactableValue V]

/-- The environment of the transaction about to run on `db`: its schema, its partitions including
the new transaction id, and that id (tx.rs:973-995). -/
def startEnv (db : Db) : TxEnv :=
  ⟨db.schema, { db.parts with tx := { db.parts.tx with next := db.parts.tx.next + 1 } }, db.parts.tx.next⟩

/-! ### C30 -/

/-- C30: stage 1 accepts the entities of a transaction exactly when vectors and maps stand where
they may and the flat list of assertions is accepted; it then yields the same terms, tempids and
lookup refs, in the same order. -/
theorem C30_flat (env : TxEnv) (es : List (TxEntity V)) (terms : List LTerm) (ids : List TempId)
    (refs : List (Entid × TypedValue)) :
    (∃ s, env.stage1 es = .ok s ∧ s.terms = terms ∧ s.tempIds = ids ∧ s.lookupRefs = refs) ↔
    (∀ x ∈ es, PlacedEntity env x) ∧
      ∃ s, env.stage1 (flattenAll 0 es).1 = .ok s ∧ s.terms = terms ∧ s.tempIds = ids ∧
        s.lookupRefs = refs := by
  simp only [stage1_eq]
  constructor
  · rintro ⟨s, h, h1, h2, h3⟩
    obtain ⟨hp, u, hu, rfl⟩ := (run_iff _ _ _ _).1 h
    exact ⟨hp, u, hu, h1, h2, h3⟩
  · rintro ⟨hp, u, hu, h1, h2, h3⟩
    exact ⟨_, (run_iff _ _ _ _).2 ⟨hp, u, hu, rfl⟩, h1, h2, h3⟩

/-- The list consists of assertions without vectors and maps. -/
theorem C30_is_flat (es : List (TxEntity V)) : ∀ x ∈ (flattenAll 0 es).1, Flat x :=
  flattenAll_flat 0 es

theorem allocate_one {p : Partition} {n p'} (h : p.allocate 1 = .ok (n, p')) :
    n = p.next ∧ p' = { p with next := p.next + 1 } := by
  simp only [Partition.allocate, Partition.setNext] at h
  split at h <;> rename_i h1
  · split at h1
    · cases h1; cases h; exact ⟨rfl, rfl⟩
    · cases h1
  · cases h
  · cases h

theorem transactEntities_ok {db : Db} {now : Int} {es : List (TxEntity V)} {r} :
    transactEntities db now es = .ok r ↔
    (∃ x, db.parts.tx.allocate 1 = .ok x) ∧ ∃ s terms, (startEnv db).stage1 es = .ok s ∧
      resolveLookupRefs db.store s.terms = .ok terms ∧ transactTerms db now terms s.tempIds = .ok r := by
  simp only [transactEntities, Res.bind_ok_iff]
  constructor
  · rintro ⟨⟨n, p'⟩, ha, s, hs, terms, ht, h⟩
    obtain ⟨rfl, rfl⟩ := allocate_one ha
    exact ⟨⟨_, ha⟩, s, terms, hs, ht, h⟩
  · rintro ⟨⟨⟨n, p'⟩, ha⟩, s, terms, hs, ht, h⟩
    refine ⟨_, ha, ?_⟩
    obtain ⟨rfl, rfl⟩ := allocate_one ha
    exact ⟨s, hs, terms, ht, h⟩

/-- C30 for whole transactions: same store, same report. -/
theorem C30_transact (db : Db) (now : Int) (es : List (TxEntity V)) (r : Db × Report) :
    transactEntities db now es = .ok r ↔
    (∀ x ∈ es, PlacedEntity (startEnv db) x) ∧
      transactEntities db now (flattenAll 0 es).1 = .ok r := by
  simp only [transactEntities_ok]
  constructor
  · rintro ⟨ha, s, terms, hs, ht, h⟩
    obtain ⟨hp, u, hu, h1, h2, -⟩ := (C30_flat (startEnv db) es s.terms s.tempIds s.lookupRefs).1
      ⟨s, hs, rfl, rfl, rfl⟩
    exact ⟨hp, ha, u, terms, hu, by rw [h1]; exact ht, by rw [h2]; exact h⟩
  · rintro ⟨hp, ha, u, terms, hu, ht, h⟩
    obtain ⟨s, hs, h1, h2, -⟩ := (C30_flat (startEnv db) es u.terms u.tempIds u.lookupRefs).2
      ⟨hp, u, hu, rfl, rfl, rfl⟩
    exact ⟨ha, s, terms, hs, by rw [h1]; exact ht, by rw [h2]; exact h⟩

/-! ### The meaning of a transaction, C31 -/

theorem lookupMeans_inj {env : TxEnv} {a : EntidOrIdent} {v : V} {r r'} (h : LookupMeans env a v r)
    (h' : LookupMeans env a v r') : r = r' := by
  obtain ⟨b, at_, w, h1, h2, -, h3, rfl⟩ := h
  obtain ⟨b', at_', w', h1', h2', -, h3', rfl⟩ := h'
  have := names_inj h1 h1'; subst this
  rw [h2] at h2'; cases h2'
  rw [h3] at h3'; cases h3'
  rfl

theorem placeMeans_inj {env : TxEnv} {x : EntityPlace V} {r r'} (h : PlaceMeans env x r)
    (h' : PlaceMeans env x r') : r = r' := by
  cases x with
  | entid e =>
    cases e with
    | entid e => exact h.2.trans h'.2.symm
    | ident k =>
      obtain ⟨n, h1, rfl⟩ := h; obtain ⟨n', h1', rfl⟩ := h'
      rw [h1] at h1'; cases h1'; rfl
  | tempId t => exact h.trans h'.symm
  | lookupRef a v =>
    obtain ⟨l, h1, rfl⟩ := h; obtain ⟨l', h1', rfl⟩ := h'
    rw [lookupMeans_inj h1 h1']
  | txFunction f => exact h.2.trans h'.2.symm

theorem valueMeans_inj {env : TxEnv} {at_} {x : ValuePlace V} {r r'} (h : ValueMeans env at_ x r)
    (h' : ValueMeans env at_ x r') : r = r' := by
  cases x with
  | entid e =>
    obtain ⟨n, h1, rfl⟩ := h; obtain ⟨n', h1', rfl⟩ := h'
    rw [names_inj h1 h1']
  | tempId t => exact h.trans h'.symm
  | lookupRef a v =>
    obtain ⟨_, l, h1, rfl⟩ := h; obtain ⟨_, l', h1', rfl⟩ := h'
    rw [lookupMeans_inj h1 h1']
  | txFunction f => exact h.2.2.trans h'.2.2.symm
  | atom v =>
    rcases h with ⟨h1, t, h2, rfl⟩ | ⟨h1, w, h2, rfl⟩ <;>
      rcases h' with ⟨h1', t', h2', rfl⟩ | ⟨h1', w', h2', rfl⟩
    · rw [h2] at h2'; cases h2'; rfl
    · rw [h1' h1] at h2; cases h2
    · rw [h1 h1'] at h2'; cases h2'
    · rw [h2] at h2'; cases h2'; rfl
  | vector vs => exact h.elim
  | map m => exact h.elim

theorem asRef_inj {r r' : Sum Entid LookupRefOrTempId} (h : asRef r = asRef r') : r = r' := by
  cases r <;> cases r' <;> simp_all [asRef]

theorem means_inj {env : TxEnv} {x : TxEntity V} {t t'} (h : Means env x t) (h' : Means env x t') :
    t = t' := by
  cases x with
  | map m => exact h.elim
  | addOrRetract op e a v =>
    obtain ⟨o, te, ta, tv⟩ := t
    obtain ⟨o', te', ta', tv'⟩ := t'
    obtain ⟨rfl, h⟩ := h
    obtain ⟨ho, h'⟩ := h'
    dsimp only at *
    rcases h with ⟨hb, at_, h1, h2, h3, h4⟩ | ⟨fa, at_, x, hu, h1, h2, -, h3, h4, rfl⟩ <;>
      rcases h' with ⟨hb', at_', h1', h2', h3', h4'⟩ | ⟨fa', at_', x', hu', h1', h2', -, h3', h4', rfl⟩
    · have := names_inj h1 h1'; subst this
      rw [h2] at h2'; cases h2'
      rw [ho, placeMeans_inj h3 h3', valueMeans_inj h4 h4']
    · rw [unreversed_backward hu'] at hb; cases hb
    · rw [unreversed_backward hu] at hb'; cases hb'
    · have hf : fa = fa' := by
        obtain ⟨ns, n, rfl, -, rfl⟩ := hu
        obtain ⟨ns', n', hh, -, rfl⟩ := hu'
        simp only [EntidOrIdent.ident.injEq, Keyword.mk.injEq, List.cons.injEq, true_and] at hh
        obtain ⟨rfl, rfl⟩ := hh; rfl
      subst hf
      have := names_inj h1 h1'; subst this
      rw [h2] at h2'; cases h2'
      rw [ho, asRef_inj (valueMeans_inj h3 h3'), placeMeans_inj h4 h4']

theorem forall2_means_inj {env : TxEnv} {xs : List (TxEntity V)} {ts ts'}
    (h : List.Forall₂ (Means env) xs ts) (h' : List.Forall₂ (Means env) xs ts') : ts = ts' := by
  induction h generalizing ts' with
  | nil => cases h'; rfl
  | cons hd tl ih =>
    cases h' with
    | cons hd' tl' => rw [means_inj hd hd', ih tl']

omit [TransactableValue V] in
theorem map_codeOp {xs : List (TxEntity V)} (h : NoReversedRetract xs) : xs.map codeOp = xs := by
  rw [List.map_congr_left (g := id), List.map_id]
  intro x hx
  cases x with
  | map m => rfl
  | addOrRetract op e a v =>
    cases op with
    | add => simp [codeOp, opOf]
    | retract => simp [codeOp, opOf, h e a v hx]

/-- C29, C30 and C31 together, as far as the code agrees: a transaction means, term by term, its
flat list of assertions; it is refused exactly when some vector or map is misplaced or some
assertion has no meaning.  Missing from the full statement: reversed attributes in retractions
(`C31_fails`). -/
theorem C31_meaning_partial (env : TxEnv) (es : List (TxEntity V)) (ts : List LTerm)
    (hr : NoReversedRetract (flattenAll 0 es).1) :
    (∃ s, env.stage1 es = .ok s ∧ s.terms = ts ∧ s.tempIds.Nodup ∧
      ∀ i, i ∈ s.tempIds ↔ MentionsId ts i) ↔
    (∀ x ∈ es, PlacedEntity env x) ∧ List.Forall₂ (Means env) (flattenAll 0 es).1 ts := by
  have hc := map_codeOp hr
  constructor
  · rintro ⟨s, h, h1, -, -⟩
    obtain ⟨hp, u, hu, h2, -, -⟩ := (C30_flat env es s.terms s.tempIds s.lookupRefs).1 ⟨s, h, rfl, rfl, rfl⟩
    rw [stage1_eq] at hu
    obtain ⟨ts', hts, had⟩ := run_means (C30_is_flat es) hu
    have := had.terms
    simp only [List.nil_append] at this
    rw [hc, ← this, h2, h1] at hts
    exact ⟨hp, hts⟩
  · rintro ⟨hp, hts⟩
    rw [← hc] at hts
    obtain ⟨u, hu⟩ := run_of_means hts {}
    obtain ⟨ts', hts', had⟩ := run_means (C30_is_flat es) hu
    have := forall2_means_inj hts hts'; subst this
    have ht := had.terms
    simp only [List.nil_append] at ht
    obtain ⟨s, hs, h1, h2, -⟩ := (C30_flat env es u.terms u.tempIds u.lookupRefs).2
      ⟨hp, u, by rw [stage1_eq]; exact hu, rfl, rfl, rfl⟩
    refine ⟨s, hs, h1.trans ht, ?_, fun i => ?_⟩
    · rw [h2]; exact had.nodup List.nodup_nil
    · rw [h2, had.ids]; simp

end

/-- The place denotes no entity by number, or one that is allocated. -/
def KnownPlace {V : Type} (env : TxEnv) (p : EntityPlace V) : Prop :=
  ∀ n, p = .entid (.entid n) → env.parts.containsEntid n = true

/-- An atom and the entity it stands for denote the same reference. -/
theorem atom_place {env : TxEnv} {at_ : Attribute} (href : at_.valueType = .ref) {v : Edn}
    {p : EntityPlace Edn} (hp : v.intoEntityPlace = .ok p)
    (hv : ∀ xs, v ≠ .list xs) (hk : KnownPlace env p) (r) :
    ValueMeans env at_ (.atom v) (asRef r) ↔ PlaceMeans env p r := by
  simp only [ValueMeans, href, true_and, forall_const, TransactableValue.asTempid,
    TransactableValue.intoTypedValue]
  cases v with
  | integer n =>
    cases hp
    have hc := hk n rfl
    simp only [Edn.asTempid, Schema.toTypedValue, TypedValue.fromEdn, PlaceMeans, hc, true_and]
    cases r <;> simp [asRef, eq_comm]
  | keyword k =>
    simp only [Edn.intoEntityPlace] at hp
    split at hp
    · cases hp
      simp only [Edn.asTempid, Schema.toTypedValue, TypedValue.fromEdn, PlaceMeans, Res.bind_ok_iff,
        requireEntid_iff, Res.ok.injEq]
      cases r with
      | inl n => simp [asRef]
      | inr l => simp [asRef]
    · cases hp
  | text s =>
    cases hp
    simp only [Edn.asTempid, PlaceMeans]
    cases r <;> simp [asRef, eq_comm]
  | list xs => exact absurd rfl (hv xs)
  | nil => cases hp
  | boolean b => cases hp
  | instant t => cases hp
  | bigInteger n => cases hp
  | float f => cases hp
  | uuid u => cases hp
  | plainSymbol s => cases hp
  | nsSymbol s => cases hp
  | vector xs => cases hp
  | set xs => cases hp
  | map m => cases hp

/-- `[op e :ns/_a v]` means `[op v :ns/a e]` (C31), for values read from text whose places name
allocated entities.  `p` is `v` as an entity. -/
theorem C31_swap_partial (env : TxEnv) (op : Op) (e p : EntityPlace Edn) (a fa : EntidOrIdent)
    (v : ValuePlace Edn) (n : Entid) (at_ : Attribute) (hu : Unreversed a fa)
    (hfa : Backward fa = false) (hn : Names env.schema fa n) (hat : env.schema.attr n = some at_)
    (href : at_.valueType = .ref) (hv : v.asEntity = some p) (hl : ∀ xs, v ≠ .atom (.list xs))
    (hp : KnownPlace env p) (he : KnownPlace env e) (t : LTerm) :
    Means env (.addOrRetract op e a v) t ↔ Means env (.addOrRetract op p fa e.asValue) t := by
  -- a place and its value form denote the same
  have both : ∀ {q : EntityPlace Edn}, KnownPlace env q → ∀ r, ValueMeans env at_ q.asValue (asRef r) ↔
      PlaceMeans env q r := by
    intro q hq r
    cases q with
    | entid x =>
      cases x with
      | entid m =>
        have := hq m rfl
        cases r <;> simp [EntityPlace.asValue, ValueMeans, PlaceMeans, Names, asRef, this]
      | ident k =>
        cases r <;> simp [EntityPlace.asValue, ValueMeans, PlaceMeans, Names, asRef]
    | tempId i => cases r <;> simp [EntityPlace.asValue, ValueMeans, PlaceMeans, asRef]
    | lookupRef x y => cases r <;> simp [EntityPlace.asValue, ValueMeans, PlaceMeans, asRef, href]
    | txFunction f => cases r <;> simp [EntityPlace.asValue, ValueMeans, PlaceMeans, asRef, href]
  have hvp : ∀ r, ValueMeans env at_ v (asRef r) ↔ PlaceMeans env p r := by
    intro r
    cases v with
    | atom x =>
      simp only [ValuePlace.asEntity, TransactableValue.intoEntityPlace] at hv
      cases hx : x.intoEntityPlace with
      | ok q =>
        simp only [hx, Option.some.injEq] at hv; subst hv
        exact atom_place href hx (fun xs h => hl xs (by rw [h])) hp r
      | err _ => simp [hx] at hv
      | panic => simp [hx] at hv
    | entid x => cases hv; exact both hp r
    | tempId x => cases hv; exact both hp r
    | lookupRef x y => cases hv; exact both hp r
    | txFunction x => cases hv; exact both hp r
    | vector x => cases hv
    | map x => cases hv
  have shape : ∀ r, ValueMeans env at_ e.asValue r → ∃ x, r = asRef x := by
    intro r h
    cases e with
    | entid x => obtain ⟨m, -, rfl⟩ := h; exact ⟨.inl m, rfl⟩
    | tempId x => cases h; exact ⟨.inr _, rfl⟩
    | lookupRef x y => obtain ⟨-, l, -, rfl⟩ := h; exact ⟨.inr l, rfl⟩
    | txFunction f => obtain ⟨-, -, rfl⟩ := h; exact ⟨.inl _, rfl⟩
  simp only [Means]
  refine and_congr_right fun _ => ?_
  constructor
  · rintro (⟨hb, -⟩ | ⟨fa', at', x, hu', h1, h2, -, h3, h4, h5⟩)
    · rw [unreversed_backward hu] at hb; cases hb
    · left
      have hf : fa = fa' := by
        obtain ⟨ns, n, rfl, -, rfl⟩ := hu
        obtain ⟨ns', n', hh, -, rfl⟩ := hu'
        simp only [EntidOrIdent.ident.injEq, Keyword.mk.injEq, List.cons.injEq, true_and] at hh
        obtain ⟨rfl, rfl⟩ := hh; rfl
      subst hf
      have := names_inj h1 hn
      rw [this] at h2
      rw [hat] at h2; cases h2
      exact ⟨hfa, at_, h1, by rw [this]; exact hat, (hvp _).1 h3, by rw [h5]; exact (both he _).2 h4⟩
  · rintro (⟨-, at', h1, h2, h3, h4⟩ | ⟨fa', at', x, hu', -⟩)
    · right
      have := names_inj h1 hn
      rw [this] at h2
      rw [hat] at h2; cases h2
      obtain ⟨x, hx⟩ := shape _ h4
      rw [hx] at h4
      exact ⟨fa, at_, x, hu, h1, by rw [this]; exact hat, href, (hvp _).2 h3, (both he _).1 h4, hx⟩
    · rw [unreversed_backward hu'] at hfa; cases hfa

/-! ### C29 -/

/-- The lookup ref or tempid resolves: a lookup ref to an entity having the value. -/
def ResolvesTo {α : Type} (rows : List Row) (lift : Entid → α) (x : Sum α LookupRefOrTempId)
    (y : Sum α TempId) : Prop :=
  match x with
  | .inl z => y = .inl z
  | .inr (.tempId t) => y = .inr t
  | .inr (.lookupRef a v) => ∃ n, Has rows n a v ∧ y = .inl (lift n)

/-- The term with its lookup refs resolved. -/
def Resolved (rows : List Row) (x : LTerm) (y : TTerm) : Prop :=
  y.op = x.op ∧ y.a = x.a ∧ ResolvesTo rows id x.e y.e ∧ ResolvesTo rows .ref x.v y.v

/-- The lookup ref `[a v]` occurs. -/
def LooksUp (ts : List LTerm) (a : Entid) (v : TypedValue) : Prop :=
  ∃ t ∈ ts, t.e = .inr (.lookupRef a v) ∨ t.v = .inr (.lookupRef a v)

theorem lookupAV_has {st : Store} {a v n} (h : st.lookupAV a v = some n) : Has st.rows n a v := by
  unfold Store.lookupAV at h
  simp only [Option.map_eq_some_iff] at h
  obtain ⟨r, hr, rfl⟩ := h
  have := List.find?_some hr
  simp only [Bool.and_eq_true, decide_eq_true_eq] at this
  exact ⟨r, List.mem_of_find?_eq_some hr, rfl, this.2.1, this.2.2⟩

theorem replaceLookupRef_ok {α : Type} {st : Store} {lift : Entid → α} {x y}
    (h : replaceLookupRef st lift x = .ok y) : ResolvesTo st.rows lift x y := by
  cases x with
  | inl z => cases h; rfl
  | inr l =>
    cases l with
    | tempId t => cases h; rfl
    | lookupRef a v =>
      simp only [replaceLookupRef] at h
      split at h
      · rename_i n hn; cases h; exact ⟨n, lookupAV_has hn, rfl⟩
      · cases h

/-- C29: every lookup ref of an accepted transaction is replaced by an entity that has its value,
and nothing else changes. -/
theorem C29_resolves {st : Store} {ts : List LTerm} {terms : List TTerm}
    (h : resolveLookupRefs st ts = .ok terms) : List.Forall₂ (Resolved st.rows) ts terms := by
  induction ts generalizing terms with
  | nil => cases h; exact .nil
  | cons x r ih =>
    simp only [resolveLookupRefs, Res.bind_ok_iff] at h
    obtain ⟨e, he, v, hv, r', hr', h⟩ := h
    cases h
    exact .cons ⟨rfl, rfl, replaceLookupRef_ok he, replaceLookupRef_ok hv⟩ (ih hr')

theorem lookups_means {V : Type} [TransactableValue V] {env : TxEnv} {x : TxEntity V} {t : LTerm}
    (h : Means env x t) {a v} (hl : t.e = .inr (.lookupRef a v) ∨ t.v = .inr (.lookupRef a v)) :
    ∃ at_, env.schema.attr a = some at_ ∧ at_.unique ≠ none := by
  have look : ∀ {y : EntidOrIdent} {w : V} {l}, LookupMeans env y w l → l = .lookupRef a v →
      ∃ at_, env.schema.attr a = some at_ ∧ at_.unique ≠ none := by
    rintro y w l ⟨a', at_, z, h1, h2, h3, h4, rfl⟩ h
    cases h; exact ⟨at_, h2, h3⟩
  have place : ∀ {p : EntityPlace V} {r}, PlaceMeans env p r → r = .inr (.lookupRef a v) →
      ∃ at_, env.schema.attr a = some at_ ∧ at_.unique ≠ none := by
    intro p r hp hr
    cases p with
    | entid e => cases e with
      | entid e => rw [hp.2] at hr; cases hr
      | ident k => obtain ⟨n, -, rfl⟩ := hp; cases hr
    | tempId i => rw [hp] at hr; cases hr
    | lookupRef y w => obtain ⟨l, h1, rfl⟩ := hp; exact look h1 (Sum.inr.inj hr)
    | txFunction f => rw [hp.2] at hr; cases hr
  have value : ∀ {at' : Attribute} {p : ValuePlace V} {r}, ValueMeans env at' p r →
      r = .inr (.lookupRef a v) → ∃ at_, env.schema.attr a = some at_ ∧ at_.unique ≠ none := by
    intro at' p r hp hr
    cases p with
    | atom w =>
      rcases hp with ⟨-, i, -, rfl⟩ | ⟨-, w, -, rfl⟩ <;> cases hr
    | entid e => obtain ⟨n, -, rfl⟩ := hp; cases hr
    | tempId i => rw [hp] at hr; cases hr
    | lookupRef y w => obtain ⟨-, l, h1, rfl⟩ := hp; exact look h1 (Sum.inr.inj hr)
    | txFunction f => rw [hp.2.2] at hr; cases hr
    | vector vs => exact hp.elim
    | map m => exact hp.elim
  cases x with
  | map m => exact h.elim
  | addOrRetract op e b w =>
    obtain ⟨-, ⟨-, at_, -, -, h3, h4⟩ | ⟨fa, at_, y, -, -, -, -, h3, h4, h5⟩⟩ := h
    · rcases hl with hl | hl
      · exact place h3 hl
      · exact value h4 hl
    · rcases hl with hl | hl
      · exact value h3 (by rw [hl]; rfl)
      · refine place h4 ?_
        rw [h5] at hl
        exact asRef_inr hl

/-- C29: a transaction with a lookup ref on an attribute that is not unique is refused. -/
theorem C29_unique_only {V : Type} [TransactableValue V] {env : TxEnv} {es : List (TxEntity V)} {s}
    (h : env.stage1 es = .ok s) {a v} (hl : LooksUp s.terms a v) :
    ∃ at_, env.schema.attr a = some at_ ∧ at_.unique ≠ none := by
  obtain ⟨-, u, hu, h2, -, -⟩ := (C30_flat env es s.terms s.tempIds s.lookupRefs).1 ⟨s, h, rfl, rfl, rfl⟩
  rw [stage1_eq] at hu
  obtain ⟨ts', hts, had⟩ := run_means (C30_is_flat es) hu
  have ht := had.terms
  simp only [List.nil_append] at ht
  rw [← h2, ht] at hl
  obtain ⟨t, ht, hl⟩ := hl
  obtain ⟨i, hi, rfl⟩ := List.mem_iff_getElem.1 ht
  have hlen := hts.length_eq
  have := List.forall₂_iff_get.1 hts
  exact lookups_means (this.2 i (by omega) hi) hl

theorem resolve_iff {st : Store} {ts : List LTerm}
    (hc : ∀ a v, LooksUp ts a v → ∀ n, st.lookupAV a v = some n ↔ Has st.rows n a v) (terms) :
    resolveLookupRefs st ts = .ok terms ↔ List.Forall₂ (Resolved st.rows) ts terms := by
  refine ⟨C29_resolves, ?_⟩
  have rep : ∀ {α : Type} {lift : Entid → α} {x y}, ResolvesTo st.rows lift x y →
      (∀ a v, x = .inr (.lookupRef a v) → LooksUp ts a v) → replaceLookupRef st lift x = .ok y := by
    intro α lift x y h hx
    cases x with
    | inl z => cases h; rfl
    | inr l =>
      cases l with
      | tempId t => cases h; rfl
      | lookupRef a v =>
        obtain ⟨n, hn, rfl⟩ := h
        simp only [replaceLookupRef, (hc a v (hx a v rfl) n).2 hn]
  intro h
  suffices ∀ us, (∀ t ∈ us, t ∈ ts) → ∀ terms, List.Forall₂ (Resolved st.rows) us terms →
      resolveLookupRefs st us = .ok terms from this ts (fun _ h => h) terms h
  intro us
  induction us with
  | nil => rintro - _ ⟨⟩; rfl
  | cons x r ih =>
    rintro hs _ (_ | ⟨⟨h1, h2, h3, h4⟩, hr⟩)
    rename_i y r'
    obtain ⟨op, e, a, v⟩ := y
    dsimp only at h1 h2 h3 h4
    subst h1 h2
    have hx := hs x (by simp)
    simp only [resolveLookupRefs, Res.bind_ok_iff]
    exact ⟨e, rep h3 (fun a v h => ⟨x, hx, Or.inl h⟩), v, rep h4 (fun a v h => ⟨x, hx, Or.inr h⟩), r',
      ih (fun t ht => hs t (List.mem_cons_of_mem _ ht)) _ hr, rfl⟩

/-- C29 in full for indexed attributes: the transaction's terms resolve exactly when every lookup
ref names an entity, which is then the only one.  (`C29_fails`: a unique attribute need not be
indexed.) -/
theorem C29_lookup_refs_partial {V : Type} [TransactableValue V] {db : Db} {es : List (TxEntity V)} {s}
    (hr : ReachKept db) (h : (startEnv db).stage1 es = .ok s)
    (hix : ∀ a v at_, LooksUp s.terms a v → db.schema.attr a = some at_ → at_.index = true) :
    (∀ terms, resolveLookupRefs db.store s.terms = .ok terms ↔
      List.Forall₂ (Resolved db.store.rows) s.terms terms) ∧
    ∀ a v n n', LooksUp s.terms a v → Has db.store.rows n a v → Has db.store.rows n' a v → n = n' := by
  have hc : ∀ a v, LooksUp s.terms a v → ∀ n, db.store.lookupAV a v = some n ↔ Has db.store.rows n a v := by
    intro a v hl n
    obtain ⟨at_, hat, hu⟩ := C29_unique_only h hl
    exact lookupAV_iff (rowsInv_reach hr).1 hat (Option.isSome_iff_ne_none.2 hu) (hix a v at_ hl hat) n
  refine ⟨resolve_iff hc, ?_⟩
  intro a v n n' hl h1 h2
  have e1 := (hc a v hl n).2 h1
  have e2 := (hc a v hl n').2 h2
  rw [e1] at e2; exact Option.some.inj e2

/-- C29: otherwise the answer is an error, never a wrong entity. -/
theorem C29_missing {st : Store} {ts : List LTerm} {a v} (hl : LooksUp ts a v)
    (hn : ∀ n, ¬ Has st.rows n a v) : resolveLookupRefs st ts = .err .unrecognizedIdent := by
  have rep : ∀ {α : Type} {lift : Entid → α} {x}, (∃ y, replaceLookupRef st lift x = .ok y) ∨
      replaceLookupRef st lift x = .err .unrecognizedIdent := by
    intro α lift x
    cases x with
    | inl z => exact Or.inl ⟨_, rfl⟩
    | inr l => cases l with
      | tempId t => exact Or.inl ⟨_, rfl⟩
      | lookupRef a v =>
        simp only [replaceLookupRef]
        cases st.lookupAV a v with
        | some n => exact Or.inl ⟨_, rfl⟩
        | none => exact Or.inr rfl
  have all : ∀ us, (∃ terms, resolveLookupRefs st us = .ok terms) ∨
      resolveLookupRefs st us = .err .unrecognizedIdent := by
    intro us
    induction us with
    | nil => exact Or.inl ⟨_, rfl⟩
    | cons x r ih =>
      simp only [resolveLookupRefs]
      rcases rep (lift := id) (x := x.e) with ⟨e, he⟩ | he
      · rcases rep (lift := TypedValue.ref) (x := x.v) with ⟨w, hw⟩ | hw
        · rcases ih with ⟨t, ht⟩ | ht
          · exact Or.inl ⟨_, by rw [he, hw, ht]; rfl⟩
          · exact Or.inr (by rw [he, hw, ht]; rfl)
        · exact Or.inr (by rw [he, hw]; rfl)
      · exact Or.inr (by rw [he]; rfl)
  rcases all ts with ⟨terms, ht⟩ | ht
  · exfalso
    obtain ⟨t, hm, hl⟩ := hl
    have h2 := C29_resolves ht
    obtain ⟨i, hi, rfl⟩ := List.mem_iff_getElem.1 hm
    have hlen := h2.length_eq
    obtain ⟨-, -, he, hv⟩ := (List.forall₂_iff_get.1 h2).2 i hi (by omega)
    simp only [List.get_eq_getElem] at he hv
    rcases hl with hl | hl
    · rw [hl] at he; obtain ⟨n, h, -⟩ := he; exact hn n h
    · rw [hl] at hv; obtain ⟨n, h, -⟩ := hv; exact hn n h
  · exact ht

/-! ### C66 -/

/-- The documented pairs: a literal of the type, an integer as a reference, the ident of an entity
as a reference. -/
inductive Coerces (s : Schema) : Edn → ValueType → TypedValue → Prop
  | boolean (b) : Coerces s (.boolean b) .boolean (.boolean b)
  | long (n) : Coerces s (.integer n) .long (.long n)
  | double (d) : Coerces s (.float (.finite d)) .double (.double d)
  | string (t) : Coerces s (.text t) .string (.string t)
  | uuid (u) : Coerces s (.uuid u) .uuid (.uuid u)
  | instant (t) : Coerces s (.instant t) .instant (.instant t.toMicros)
  | keyword (k) : Coerces s (.keyword k) .keyword (.keyword k.keyword)
  | ref (n) : Coerces s (.integer n) .ref (.ref n)
  | ident {k e} : AMap.get s.identMap k.keyword = some e → Coerces s (.keyword k) .ref (.ref e)

/-- C66: conversion succeeds exactly on these pairs. -/
theorem C66_coercion (s : Schema) (x : Edn) (vt : ValueType) (v : TypedValue) :
    s.toTypedValue x vt = .ok v ↔ Coerces s x vt v := by
  constructor
  · intro h
    cases x with
    | boolean b => cases vt <;> cases h; constructor
    | integer n => cases vt <;> cases h <;> constructor
    | float f =>
      cases f with
      | finite d => cases vt <;> cases h; constructor
      | _ => cases h
    | text t => cases vt <;> cases h; constructor
    | uuid u => cases vt <;> cases h; constructor
    | instant t => cases vt <;> cases h; constructor
    | keyword k =>
      cases vt with
      | keyword => cases h; constructor
      | ref =>
        simp only [Schema.toTypedValue, TypedValue.fromEdn, Res.bind_ok_iff, requireEntid_iff,
          Res.ok.injEq] at h
        obtain ⟨e, he, rfl⟩ := h
        exact .ident he
      | _ => cases h
    | _ => cases h
  · intro h
    cases h with
    | ident h => simp only [Schema.toTypedValue, TypedValue.fromEdn, requireEntid_iff.2 h, Res.bind]
    | _ => rfl

/-- C66: the result has the type asked for. -/
theorem C66_typed {s : Schema} {x : Edn} {vt : ValueType} {v : TypedValue}
    (h : s.toTypedValue x vt = .ok v) : v.valueType = vt := by
  cases (C66_coercion s x vt v).1 h <;> rfl

/-- The ident of `:x/id` in the example store as a reference. -/
theorem C66_example : setupDb.schema.toTypedValue (.keyword ⟨"x/id".toList, 1⟩) .ref =
    .ok (.ref xId) := by decide +kernel

/-! ### Examples, and where the code disagrees -/

/-- Install `:x/r` (65539), a reference of cardinality many; then two entities, 65540 with identity
"k" and 65541 with identity "m". -/
def refTxs : List Tx :=
  [(install "r" DB_TYPE_REF DB_CARDINALITY_MANY, [tid "r"]),
   ([addT "a" xId (str "k"), addT "b" xId (str "m")], [tid "a", tid "b"])]

/-- `{:x/id "new" :x/many [1 2] :x/r {:x/id "k" :x/one "v"} :x/_r (lookup-ref :x/id "m")}` -/
def nestedTx : List (TxEntity Edn) :=
  [.map [(.ident (kw "x" "id"), .atom (.text "new".toList)),
         (.ident (kw "x" "many"), .vector [.atom (.integer 1), .atom (.integer 2)]),
         (.ident (kw "x" "r"), .map [(.ident (kw "x" "id"), .atom (.text "k".toList)),
                                     (.ident (kw "x" "one"), .atom (.text "v".toList))]),
         (.ident (kw "x" "_r"), .lookupRef (.ident (kw "x" "id")) (.text "m".toList))]]

/-- The hypotheses of C29 and C30 are met by a nested, vectored, reversed map with a lookup ref:
the new entity is 65542, related both ways. -/
theorem C30_example : ∃ db db' rep, ReachKept db ∧ transactEntities db 0 nestedTx = .ok (db', rep) ∧
    (flattenAll 0 nestedTx).1.length = 7 ∧
    Has db'.store.rows 65542 xId (str "new") ∧ Has db'.store.rows 65542 xMany (.long 2) ∧
    Has db'.store.rows 65542 65539 (.ref 65540) ∧ Has db'.store.rows 65540 xOne (str "v") ∧
    Has db'.store.rows 65541 65539 (.ref 65542) := by
  obtain ⟨db, h, hp⟩ := reachKept_of_setup (txs := refTxs) (p := fun db =>
    match transactEntities db 0 nestedTx with
    | .ok (db', _) => hasB db' 65542 xId (str "new") && hasB db' 65542 xMany (.long 2) &&
        hasB db' 65542 65539 (.ref 65540) && hasB db' 65540 xOne (str "v") &&
        hasB db' 65541 65539 (.ref 65542)
    | _ => false) (by decide +kernel)
  split at hp
  · rename_i db' rep ht
    simp only [Bool.and_eq_true, hasB_iff] at hp
    exact ⟨db, db', rep, h, ht, by decide, hp.1.1.1.1, hp.1.1.1.2, hp.1.1.2, hp.1.2, hp.2⟩
  · simp at hp

/-- Full C31 fails (tx.rs:467-476 always pushes `OpType::Add`): retracting through a reversed
attribute adds the datom instead. -/
theorem C31_fails : ∃ db db' rep, ReachKept db ∧ ¬ Has db.store.rows 65541 65539 (.ref 65540) ∧
    transactEntities db 0 [(.addOrRetract .retract (.entid (.entid 65540)) (.ident (kw "x" "_r"))
      (.entid (.entid 65541)) : TxEntity Edn)] = .ok (db', rep) ∧
    Has db'.store.rows 65541 65539 (.ref 65540) := by
  obtain ⟨db, h, hp⟩ := reachKept_of_setup (txs := refTxs) (p := fun db =>
    !hasB db 65541 65539 (.ref 65540) &&
    match transactEntities db 0 [(.addOrRetract .retract (.entid (.entid 65540)) (.ident (kw "x" "_r"))
      (.entid (.entid 65541)) : TxEntity Edn)] with
    | .ok (db', _) => hasB db' 65541 65539 (.ref 65540)
    | _ => false) (by decide +kernel)
  simp only [Bool.and_eq_true, Bool.not_eq_true'] at hp
  obtain ⟨hn, hp⟩ := hp
  split at hp
  · rename_i db' rep ht
    rw [hasB_iff] at hp
    refine ⟨db, db', rep, h, ?_, ht, hp⟩
    rw [← hasB_iff, hn]; simp
  · simp at hp

/-- Full C29 fails for a unique attribute that is not indexed (an alteration can produce one):
exactly one entity has the value, and yet the lookup ref is refused. -/
theorem C29_fails : ∃ db n at_, ReachKept db ∧ db.schema.attr xOne = some at_ ∧ at_.unique ≠ none ∧
    Has db.store.rows n xOne (str "z") ∧
    transactEntities db 0 [(.addOrRetract .add (.lookupRef (.ident (kw "x" "one")) (.text "z".toList))
      (.ident (kw "x" "many")) (.atom (.integer 7)) : TxEntity Edn)] = .err .unrecognizedIdent := by
  obtain ⟨db, h, hp⟩ := reachKept_of_setup (txs := unindexedTxs) (p := fun db =>
    hasB db 65540 xOne (str "z") &&
    ((db.schema.attr xOne).any fun (at_ : Attribute) => decide (at_.unique = some .identity)) &&
    decide (transactEntities db 0 [(.addOrRetract .add (.lookupRef (.ident (kw "x" "one")) (.text "z".toList))
      (.ident (kw "x" "many")) (.atom (.integer 7)) : TxEntity Edn)] = .err .unrecognizedIdent)) (by decide +kernel)
  simp only [Bool.and_eq_true, decide_eq_true_eq, hasB_iff, Option.any_eq_true] at hp
  obtain ⟨⟨h1, at_, h2, h3⟩, h4⟩ := hp
  exact ⟨db, 65540, at_, h, h2, by rw [h3]; simp, h1, h4⟩

end Mentat
