import Verif.Proofs.Vocabulary
import Verif.Proofs.Examples
/-
C43: what checking a vocabulary reports, and what ensuring one leads to.
-/
namespace Mentat

/-! ### What the store says about a vocabulary -/

/-- The store has a vocabulary `name`, the entity `e`, at version `n`. -/
def StoredAs (db : Db) (name : Keyword) (e : Entid) (n : Nat) : Prop :=
  AMap.get db.schema.identMap name = some e ∧ Has db.store.rows e DB_SCHEMA_VERSION (.long n) ∧
    0 < n ∧ n < 4294967295

/-- The vocabulary `e` has an attribute named `k`, defined as `at_`. -/
def HasAttribute (db : Db) (e : Entid) (k : Keyword) (at_ : Attribute) : Prop :=
  ∃ a, AMap.get db.schema.identMap k = some a ∧ Has db.store.rows e DB_SCHEMA_ATTRIBUTE (.ref a) ∧
    db.schema.attr a = some at_

/-- `v` is the vocabulary `name` as stored. -/
def IsStored (db : Db) (name : Keyword) (v : Vocabulary) : Prop :=
  StoredAs db name v.entity v.version ∧
    ∀ a at_, (a, at_) ∈ v.attributes ↔ Has db.store.rows v.entity DB_SCHEMA_ATTRIBUTE (.ref a) ∧ db.schema.attr a = some at_

/-- A version that vocabularies may have. -/
def GoodVersion (v : TypedValue) : Prop := ∃ n : Nat, v = .long n ∧ 0 < n ∧ n < 4294967295

/-- The cases of a check. -/
def Verdict (db : Db) (d : Definition) : Res VCheck → Prop
  | .ok .notPresent => ∀ e, AMap.get db.schema.identMap d.name = some e → ∀ v, ¬ Has db.store.rows e DB_SCHEMA_VERSION v
  | .ok .present => ∃ e, StoredAs db d.name e d.version ∧ ∀ k at_, (k, at_) ∈ d.attributes → HasAttribute db e k at_
  | .ok (.needsUpdate v) => IsStored db d.name v ∧ v.version < d.version
  | .ok (.tooNew v) => IsStored db d.name v ∧ d.version < v.version
  | .ok (.missing m) => ∃ e, StoredAs db d.name e d.version ∧ m ≠ [] ∧ m.Sublist d.attributes ∧
      (∀ k at_, (k, at_) ∈ d.attributes → ((k, at_) ∈ m ↔ ∀ x, ¬ HasAttribute db e k x)) ∧
      ∀ k at_, (k, at_) ∈ d.attributes → ∀ x, HasAttribute db e k x → x = at_
  | .err _ => ∃ e, AMap.get db.schema.identMap d.name = some e ∧
      ((∃ v, Has db.store.rows e DB_SCHEMA_VERSION v ∧ ¬ GoodVersion v) ∨
        StoredAs db d.name e d.version ∧ ∃ k at_ x, (k, at_) ∈ d.attributes ∧ HasAttribute db e k x ∧ x ≠ at_)
  | .panic => False

/-! ### Reading -/

theorem versionOf_some {v n} (h : versionOf v = some n) : v = .long n ∧ 0 < n ∧ n < 4294967295 := by
  cases v with
  | long i =>
    simp only [versionOf] at h
    by_cases hi : 0 < i ∧ i < 4294967295
    · rw [if_pos hi] at h
      obtain rfl := Option.some.inj h
      refine ⟨by rw [Int.toNat_of_nonneg (by omega)], by omega, by omega⟩
    · rw [if_neg hi] at h; cases h
  | _ => cases h

theorem versionOf_long {n : Nat} (h0 : 0 < n) (h1 : n < 4294967295) : versionOf (.long n) = some n := by
  simp only [versionOf]
  rw [if_pos ⟨by omega, by omega⟩]
  simp

theorem versionOf_none {v} (h : versionOf v = none) : ¬ GoodVersion v := by
  rintro ⟨n, rfl, h0, h1⟩
  rw [versionOf_long h0 h1] at h
  cases h

/-- What reading needs of the core vocabulary. -/
structure ReadableCore (s : Schema) : Prop where
  version : AMap.get s.identMap kwVersion = some DB_SCHEMA_VERSION
  attr : AMap.get s.identMap kwAttribute = some DB_SCHEMA_ATTRIBUTE
  version' : (s.attr DB_SCHEMA_VERSION).isSome = true
  attr' : (s.attr DB_SCHEMA_ATTRIBUTE).isSome = true

theorem CoreIntact.readable {s : Schema} (h : CoreIntact s) : ReadableCore s :=
  ⟨h.ident (by decide +kernel), h.ident (by decide +kernel), h.isSome (by decide), h.isSome (by decide)⟩

theorem mem_valuesOf {db : Db} {e a v} (h : (db.schema.attr a).isSome = true) :
    v ∈ db.valuesOf e a ↔ Has db.store.rows e a v := by
  unfold Db.valuesOf Has
  rw [if_pos h]
  simp only [List.mem_map, List.mem_filter, decide_eq_true_eq]
  constructor
  · rintro ⟨r, ⟨h1, h2, h3⟩, h4⟩; exact ⟨r, h1, h2, h3, h4⟩
  · rintro ⟨r, h1, h2, h3, h4⟩; exact ⟨r, ⟨h1, h2, h3⟩, h4⟩

theorem mem_attributesOf {s : Schema} {vs a at_} :
    (a, at_) ∈ attributesOf s vs ↔ .ref a ∈ vs ∧ s.attr a = some at_ := by
  unfold attributesOf
  rw [List.mem_filterMap]
  constructor
  · rintro ⟨v, hv, h⟩
    cases v with
    | ref b =>
      simp only [Option.map_eq_some_iff, Prod.mk.injEq] at h
      obtain ⟨x, hx, rfl, rfl⟩ := h
      exact ⟨hv, hx⟩
    | _ => cases h
  · rintro ⟨hv, h⟩
    exact ⟨_, hv, by simp [h]⟩

theorem readNamed_spec {db : Db} (hc : ReadableCore db.schema) (name : Keyword) :
    match readVocabularyNamed db name with
    | .ok none => ∀ e, AMap.get db.schema.identMap name = some e → ∀ v, ¬ Has db.store.rows e DB_SCHEMA_VERSION v
    | .ok (some v) => IsStored db name v
    | .err _ => ∃ e v, AMap.get db.schema.identMap name = some e ∧ Has db.store.rows e DB_SCHEMA_VERSION v ∧ ¬ GoodVersion v
    | .panic => False := by
  unfold readVocabularyNamed
  cases hn : AMap.get db.schema.identMap name with
  | none => intro e he; cases he
  | some e =>
    have hl : db.lookupAttribute kwVersion = .ok DB_SCHEMA_VERSION := by unfold Db.lookupAttribute; rw [hc.version]
    have ha : db.lookupAttribute kwAttribute = .ok DB_SCHEMA_ATTRIBUTE := by
      unfold Db.lookupAttribute; rw [hc.attr]
    simp only [hl, ha, Res.bind]
    cases hh : (db.valuesOf e DB_SCHEMA_VERSION).head? with
    | none =>
      intro e' he v hv
      obtain rfl := Option.some.inj he
      rw [← mem_valuesOf hc.version', List.head?_eq_none_iff.1 hh] at hv
      cases hv
    | some v =>
      have hv : Has db.store.rows e DB_SCHEMA_VERSION v := (mem_valuesOf hc.version').1 (List.mem_of_mem_head? hh)
      cases hvo : versionOf v with
      | none => simp only [hvo]; exact ⟨e, v, rfl, hv, versionOf_none hvo⟩
      | some n =>
        simp only [hvo]
        obtain ⟨rfl, h0, h1⟩ := versionOf_some hvo
        refine ⟨⟨hn, hv, h0, h1⟩, fun a at_ => ?_⟩
        show (a, at_) ∈ attributesOf _ _ ↔ _
        rw [mem_attributesOf, mem_valuesOf hc.attr']

theorem IsStored.find {db name v} (h : IsStored db name v) {a at_} :
    v.find a = some at_ ↔ Has db.store.rows v.entity DB_SCHEMA_ATTRIBUTE (.ref a) ∧ db.schema.attr a = some at_ := by
  rw [← h.2]
  unfold Vocabulary.find
  rw [Option.map_eq_some_iff]
  constructor
  · rintro ⟨⟨b, x⟩, hf, rfl⟩
    have h1 := List.mem_of_find?_eq_some hf
    have h2 := List.find?_some hf
    obtain rfl : b = a := by simpa using h2
    exact h1
  · intro hm
    cases hf : v.attributes.find? fun p => decide (p.1 = a) with
    | none =>
      have := List.find?_eq_none.1 hf _ hm
      simp at this
    | some p =>
      obtain ⟨b, x⟩ := p
      have h1 := List.mem_of_find?_eq_some hf
      have h2 := List.find?_some hf
      obtain rfl : b = a := by simpa using h2
      have e1 := (h.2 _ _).1 h1
      have e2 := (h.2 _ _).1 hm
      exact ⟨_, rfl, Option.some.inj (e1.2.symm.trans e2.2)⟩

theorem IsStored.existing {db name v} (h : IsStored db name v) {k x} :
    existingAttribute db.schema v k = some x ↔ HasAttribute db v.entity k x := by
  unfold existingAttribute HasAttribute
  rw [Option.bind_eq_some_iff]
  constructor
  · rintro ⟨a, h1, h2⟩; exact ⟨a, h1, h.find.1 h2⟩
  · rintro ⟨a, h1, h2⟩; exact ⟨a, h1, h.find.2 h2⟩

theorem missing_spec {db name v} (h : IsStored db name v) : ∀ {attrs : List (Keyword × Attribute)},
    match missingAttributes db.schema v attrs with
    | .ok m => m.Sublist attrs ∧
        (∀ k at_, (k, at_) ∈ attrs → ((k, at_) ∈ m ↔ ∀ x, ¬ HasAttribute db v.entity k x)) ∧
        ∀ k at_, (k, at_) ∈ attrs → ∀ x, HasAttribute db v.entity k x → x = at_
    | .err _ => ∃ k at_ x, (k, at_) ∈ attrs ∧ HasAttribute db v.entity k x ∧ x ≠ at_
    | .panic => False := by
  intro attrs
  induction attrs with
  | nil => simp [missingAttributes]
  | cons p r ih =>
    obtain ⟨k, at_⟩ := p
    unfold missingAttributes
    cases he : existingAttribute db.schema v k with
    | some x =>
      have hx := h.existing.1 he
      by_cases hxa : x = at_
      · simp only [hxa, if_true]
        subst hxa
        have only : ∀ y, HasAttribute db v.entity k y → y = x := by
          intro y hy
          exact Option.some.inj ((h.existing.2 hy).symm.trans he)
        cases hm : missingAttributes db.schema v r with
        | ok m =>
          rw [hm] at ih
          obtain ⟨i1, i2, i3⟩ := ih
          refine ⟨i1.cons _, ?_, ?_⟩
          · intro k' at' hmem
            rw [List.mem_cons, Prod.mk.injEq] at hmem
            rcases hmem with ⟨rfl, rfl⟩ | hmem
            · refine ⟨fun hin => ?_, fun hno => absurd hx (hno _)⟩
              exact (i2 _ _ (i1.subset hin)).1 hin
            · exact i2 _ _ hmem
          · intro k' at' hmem y hy
            rw [List.mem_cons, Prod.mk.injEq] at hmem
            rcases hmem with ⟨rfl, rfl⟩ | hmem
            · exact only y hy
            · exact i3 _ _ hmem y hy
        | err e =>
          rw [hm] at ih
          obtain ⟨k', at', y, h1, h2, h3⟩ := ih
          exact ⟨k', at', y, List.mem_cons_of_mem _ h1, h2, h3⟩
        | panic => rw [hm] at ih; exact ih
      · simp only [hxa, if_false]
        exact ⟨k, at_, x, by simp, hx, hxa⟩
    | none =>
      have hno : ∀ x, ¬ HasAttribute db v.entity k x := by
        intro x hx
        rw [h.existing.2 hx] at he; cases he
      cases hm : missingAttributes db.schema v r with
      | ok m =>
        rw [hm] at ih
        obtain ⟨i1, i2, i3⟩ := ih
        refine ⟨i1.cons_cons _, ?_, ?_⟩
        · intro k' at' hmem
          rw [List.mem_cons, Prod.mk.injEq] at hmem ⊢
          rcases hmem with ⟨rfl, rfl⟩ | hmem
          · exact ⟨fun _ => hno, fun _ => Or.inl ⟨rfl, rfl⟩⟩
          · rw [← i2 _ _ hmem]
            refine ⟨?_, Or.inr⟩
            rintro (⟨rfl, rfl⟩ | hin)
            · exact (i2 _ _ hmem).2 hno
            · exact hin
        · intro k' at' hmem y hy
          rw [List.mem_cons, Prod.mk.injEq] at hmem
          rcases hmem with ⟨rfl, rfl⟩ | hmem
          · exact absurd hy (hno y)
          · exact i3 _ _ hmem y hy
      | err e =>
        rw [hm] at ih
        obtain ⟨k', at', y, h1, h2, h3⟩ := ih
        exact ⟨k', at', y, List.mem_cons_of_mem _ h1, h2, h3⟩
      | panic => rw [hm] at ih; exact ih

theorem check_verdict {db : Db} (hc : ReadableCore db.schema) (d : Definition) : Verdict db d (checkVocabulary db d) := by
  have hr := readNamed_spec hc d.name
  unfold checkVocabulary
  cases ho : readVocabularyNamed db d.name with
  | panic => rw [ho] at hr; exact hr
  | err e =>
    rw [ho] at hr
    obtain ⟨e', v, h1, h2, h3⟩ := hr
    exact ⟨e', h1, Or.inl ⟨v, h2, h3⟩⟩
  | ok o =>
    rw [ho] at hr
    cases o with
    | none => exact hr
    | some v =>
      have hr : IsStored db d.name v := hr
      show Verdict db d (if v.version = d.version then _ else _)
      by_cases hv : v.version = d.version
      · rw [if_pos hv]
        have hst : StoredAs db d.name v.entity d.version := hv ▸ hr.1
        have hm := missing_spec hr (attrs := d.attributes)
        cases hmi : missingAttributes db.schema v d.attributes with
        | panic => rw [hmi] at hm; exact hm
        | err e =>
          rw [hmi] at hm
          exact ⟨v.entity, hr.1.1, Or.inr ⟨hst, hm⟩⟩
        | ok m =>
          rw [hmi] at hm
          obtain ⟨m1, m2, m3⟩ := hm
          cases m with
          | nil =>
            refine ⟨v.entity, hst, fun k at_ hmem => ?_⟩
            have : ¬ ∀ x, ¬ HasAttribute db v.entity k x := fun h => by
              have := (m2 k at_ hmem).2 h; cases this
            obtain ⟨x, hx⟩ := Classical.not_forall.1 this
            have hx := Classical.not_not.1 hx
            rw [← m3 k at_ hmem x hx]; exact hx
          | cons p m => exact ⟨v.entity, hst, by simp, m1, m2, m3⟩
      · rw [if_neg hv]
        by_cases hlt : v.version < d.version
        · rw [if_pos hlt]; exact ⟨hr, hlt⟩
        · rw [if_neg hlt]; exact ⟨hr, by omega⟩

/-- C43: a check reports one of the cases of `Verdict`, and that case holds of the store.  No two of
them hold at once (`C43_exclusive`), so each is reported exactly when it holds. -/
theorem C43_check {db : Db} (hc : CoreIntact db.schema) (d : Definition) : Verdict db d (checkVocabulary db d) :=
  check_verdict hc.readable d

/-- The kinds of verdict. -/
def VCheck.kind : Res VCheck → Nat
  | .ok .notPresent => 0
  | .ok .present => 1
  | .ok (.needsUpdate _) => 2
  | .ok (.tooNew _) => 3
  | .ok (.missing _) => 4
  | .err _ => 5
  | .panic => 6

theorem version_one {db : Db} (hr : ReachKept db) (hc : CoreIntact db.schema) {e v v'}
    (h : Has db.store.rows e DB_SCHEMA_VERSION v) (h' : Has db.store.rows e DB_SCHEMA_VERSION v') : v = v' := by
  obtain ⟨hi, -⟩ := rowsInv_reach hr
  obtain ⟨at_, hat, hm⟩ := hc.one (a := DB_SCHEMA_VERSION) (by decide +kernel)
  obtain ⟨r, hr, re, ra, rfl⟩ := h
  obtain ⟨r', hr', re', ra', rfl⟩ := h'
  rw [hi.one r hr r' hr' at_ (by rw [ra]; exact hat) hm (re.trans re'.symm) (ra.trans ra'.symm)]

theorem StoredAs.one {db : Db} (hr : ReachKept db) (hc : CoreIntact db.schema) {name e e' n n'}
    (h : StoredAs db name e n) (h' : StoredAs db name e' n') : e = e' ∧ n = n' := by
  obtain rfl := Option.some.inj (h.1.symm.trans h'.1)
  have := version_one hr hc h.2.1 h'.2.1
  injection this with this
  exact ⟨rfl, by omega⟩

theorem HasAttribute.one {db e k x y} (h : HasAttribute db e k x) (h' : HasAttribute db e k y) : x = y := by
  obtain ⟨a, h1, -, h2⟩ := h
  obtain ⟨a', h3, -, h4⟩ := h'
  obtain rfl := Option.some.inj (h1.symm.trans h3)
  exact Option.some.inj (h2.symm.trans h4)

/-- C43: the cases exclude one another. -/
theorem C43_exclusive {db : Db} (hr : ReachKept db) (hc : CoreIntact db.schema) {d : Definition} {r r' : Res VCheck}
    (h : Verdict db d r) (h' : Verdict db d r') : VCheck.kind r = VCheck.kind r' := by
  -- what each verdict says about the version stored
  have np : ∀ {e n}, Verdict db d (.ok .notPresent) → StoredAs db d.name e n → False :=
    fun h hs => h _ hs.1 _ hs.2.1
  have pe : ∀ {e : Err}, Verdict db d (.ok .notPresent) → Verdict db d (.err e) → False := by
    rintro e h ⟨e, h1, ⟨v, h2, -⟩ | ⟨hs, -⟩⟩
    · exact h e h1 v h2
    · exact np h hs
  have lt : ∀ {v} {e}, IsStored db d.name v → StoredAs db d.name e d.version → v.version = d.version :=
    fun h hs => (h.1.one hr hc hs).2
  have le : ∀ {v : Vocabulary} {e : Err}, IsStored db d.name v → Verdict db d (.err e) → v.version = d.version := by
    rintro v e h ⟨e, h1, ⟨w, h2, h3⟩ | ⟨hs, -⟩⟩
    · obtain rfl := Option.some.inj (h.1.1.symm.trans h1)
      exact absurd ⟨_, (version_one hr hc h.1.2.1 h2).symm, h.1.2.2⟩ h3
    · exact lt h hs
  have pm : ∀ {m}, Verdict db d (.ok .present) → Verdict db d (.ok (.missing m)) → False := by
    rintro m ⟨e, h1, h2⟩ ⟨e', h3, hne, hsub, h4, -⟩
    obtain ⟨rfl, -⟩ := h1.one hr hc h3
    cases m with
    | nil => exact hne rfl
    | cons p m =>
      obtain ⟨k, at_⟩ := p
      have hm : (k, at_) ∈ d.attributes := hsub.subset (by simp)
      exact (h4 k at_ hm).1 (by simp) _ (h2 k at_ hm)
  have ce : ∀ {e'} {e : Err}, StoredAs db d.name e' d.version →
      (∀ k at_, (k, at_) ∈ d.attributes → ∀ x, HasAttribute db e' k x → x = at_) → Verdict db d (.err e) → False := by
    rintro e' e hs hall ⟨e, h1, ⟨w, h2, h3⟩ | ⟨hs', k, at_, x, hm, hx, hne⟩⟩
    · obtain rfl := Option.some.inj (hs.1.symm.trans h1)
      exact h3 ⟨_, (version_one hr hc hs.2.1 h2).symm, hs.2.2⟩
    · obtain ⟨rfl, -⟩ := hs.one hr hc hs'
      exact hne (hall k at_ hm x hx)
  have pr : ∀ {e : Err}, Verdict db d (.ok .present) → Verdict db d (.err e) → False := by
    rintro e ⟨e', h1, h2⟩ h
    exact ce h1 (fun k at_ hm x hx => hx.one (h2 k at_ hm)) h
  have mi : ∀ {m} {e : Err}, Verdict db d (.ok (.missing m)) → Verdict db d (.err e) → False := by
    rintro m e ⟨e', h1, -, -, -, h2⟩ h
    exact ce h1 h2 h
  rcases r with (_ | _ | v | v | m) | e | _ <;> rcases r' with (_ | _ | v' | v' | m') | e' | _ <;>
    first
    | rfl
    | exact absurd h id
    | exact absurd h' id
    | exact (pe h h').elim
    | exact (pe h' h).elim
    | exact (pr h h').elim
    | exact (pr h' h).elim
    | exact (mi h h').elim
    | exact (mi h' h).elim
    | exact (pm h h').elim
    | exact (pm h' h).elim
    | (obtain ⟨_, h1, _⟩ := h'; exact (np h h1).elim)
    | (obtain ⟨_, h1, _⟩ := h; exact (np h' h1).elim)
    | exact (np h h'.1.1).elim
    | exact (np h' h.1.1).elim
    | (have h2 := (h.1.1.one hr hc h'.1.1).2; have := h.2; have := h'.2; omega)
    | (have h2 := le h.1 h'; have := h.2; omega)
    | (have h2 := le h'.1 h; have := h'.2; omega)
    | (obtain ⟨_, h1, _⟩ := h'; have h2 := lt h.1 h1; have := h.2; omega)
    | (obtain ⟨_, h1, _⟩ := h; have h2 := lt h'.1 h1; have := h'.2; omega)

/-! ### Ensuring -/

/-- What a definition has to satisfy to be ensured faithfully; each condition is needed, see the
theorems `C43_fails_*`. -/
structure Ensurable (db : Db) (d : Definition) : Prop where
  /-- the version is one that can be read back -/
  version : 0 < d.version ∧ d.version < 4294967295
  /-- no two attributes have the same name -/
  names : DistinctNames d.attributes
  /-- `:db/noHistory` is not used -/
  noHistory : ∀ k at_, (k, at_) ∈ d.attributes → at_.noHistory = false
  /-- an attribute that is to be no longer unique belongs to the version being upgraded -/
  drops : ∀ k at_ a o, (k, at_) ∈ d.attributes → AMap.get db.schema.identMap k = some a → db.schema.attr a = some o →
    at_.unique = none → o.unique ≠ none →
    ∃ e n, StoredAs db d.name e n ∧ n < d.version ∧ Has db.store.rows e DB_SCHEMA_ATTRIBUTE (.ref a)
  /-- an attribute that stays unique, and is not there already, has all the datoms a vocabulary writes -/
  keeps : ∀ k at_ a o, (k, at_) ∈ d.attributes → AMap.get db.schema.identMap k = some a → db.schema.attr a = some o →
    at_.unique ≠ none → o.unique = at_.unique →
    (∀ e, StoredAs db d.name e d.version → ¬ Has db.store.rows e DB_SCHEMA_ATTRIBUTE (.ref a)) →
    ∀ p ∈ describing at_, Has db.store.rows a p.1 p.2

theorem check_present {db : Db} {d : Definition} (hc : ReadableCore db.schema) {e : Entid}
    (hn : AMap.get db.schema.identMap d.name = some e)
    (hv : ∀ v, Has db.store.rows e DB_SCHEMA_VERSION v ↔ v = .long d.version)
    (h0 : 0 < d.version ∧ d.version < 4294967295)
    (ha : ∀ k at_, (k, at_) ∈ d.attributes → HasAttribute db e k at_) : checkVocabulary db d = .ok .present := by
  have hr := check_verdict hc d
  cases h : checkVocabulary db d with
  | panic => rw [h] at hr; exact hr.elim
  | err x =>
    rw [h] at hr
    obtain ⟨e', h1, ⟨v, h2, h3⟩ | ⟨-, k, at_, x, hm, hx, hne⟩⟩ := hr
    · obtain rfl := Option.some.inj (hn.symm.trans h1)
      exact absurd ⟨d.version, (hv v).1 h2, h0⟩ h3
    · obtain rfl := Option.some.inj (hn.symm.trans h1)
      exact absurd (hx.one (ha k at_ hm)) hne
  | ok c =>
    rw [h] at hr
    have hold : ∀ v, IsStored db d.name v → v.version = d.version := by
      intro v hs
      have := hs.1.2.1
      obtain he := Option.some.inj (hn.symm.trans hs.1.1)
      rw [← he, hv] at this
      injection this with this
      omega
    cases c with
    | present => rfl
    | notPresent => exact absurd ((hv _).2 rfl) (hr e hn _)
    | needsUpdate v => have := hold v hr.1; have := hr.2; omega
    | tooNew v => have := hold v hr.1; have := hr.2; omega
    | missing m =>
      obtain ⟨e', h1, hne, hsub, h4, -⟩ := hr
      obtain rfl := Option.some.inj (hn.symm.trans h1.1)
      cases m with
      | nil => exact absurd rfl hne
      | cons p m =>
        obtain ⟨k, at_⟩ := p
        have hm : (k, at_) ∈ d.attributes := hsub.subset (by simp)
        exact absurd (ha k at_ hm) ((h4 k at_ hm).1 (by simp) _)

theorem transactBuilt_ok {db db' : Db} {now ts} (h : transactBuilt db now ts = .ok db') :
    ∃ rep, transactTerms db now ts (tempidsOf ts) = .ok (db', rep) := by
  unfold transactBuilt at h
  by_cases ht : ts.all (termTyped db.schema) = true
  · rw [if_pos ht, Res.bind_ok_iff] at h
    obtain ⟨⟨db1, rep⟩, h1, h2⟩ := h
    obtain rfl := Res.ok.inj h2
    exact ⟨rep, h1⟩
  · rw [if_neg ht] at h; cases h

theorem described_transacts {db db' : Db} {d attrs old ts now ids rep} (R : DescRun db d attrs old ts now ids db' rep) :
    Transacts db db' := by
  refine ⟨now, ts, ids, rep, ?_, R.tx⟩
  intro x hx e he
  rcases ((R.mem x).1 hx).shape with ⟨t, k', rfl, -⟩ | ⟨-, -, h⟩
  · cases he
  · rcases h with rfl | ⟨k', at', -, rfl⟩ | ⟨k', at', hm', hxe, -⟩
    · cases he
    · cases he
    · rw [hxe] at he; cases he

/-- Nothing a check of `d` looks at, or the ensuring of it depends on, differs between `db` and `db'`. -/
structure Undisturbed (db db' : Db) (d : Definition) : Prop where
  name : AMap.get db'.schema.identMap d.name = AMap.get db.schema.identMap d.name
  versions : ∀ e, AMap.get db.schema.identMap d.name = some e → ∀ v,
    (Has db'.store.rows e DB_SCHEMA_VERSION v ↔ Has db.store.rows e DB_SCHEMA_VERSION v)
  refs : ∀ e, AMap.get db.schema.identMap d.name = some e → ∀ v,
    (Has db'.store.rows e DB_SCHEMA_ATTRIBUTE v ↔ Has db.store.rows e DB_SCHEMA_ATTRIBUTE v)
  names : ∀ k x, (k, x) ∈ d.attributes → AMap.get db'.schema.identMap k = AMap.get db.schema.identMap k
  attrs : ∀ k x a, (k, x) ∈ d.attributes → AMap.get db.schema.identMap k = some a →
    db'.schema.attr a = db.schema.attr a ∧
      ∀ b v, b ∈ schemaList → (Has db'.store.rows a b v ↔ Has db.store.rows a b v)

/-- Two definitions that share no name: neither their own, nor those of their attributes. -/
structure Apart (d d1 : Definition) : Prop where
  name : d.name ≠ d1.name
  left : ∀ x, (d.name, x) ∉ d1.attributes
  right : ∀ x, (d1.name, x) ∉ d.attributes
  attrs : ∀ k x y, (k, x) ∈ d.attributes → (k, y) ∉ d1.attributes

/-- What ensuring a vocabulary leads to: it is present, the attributes not in it are as they were,
names stay, vocabularies it shares nothing with stay present, the core vocabulary stays intact unless
it is redefined and, if its attributes are valid, the store is still one described by its schema. -/
structure Ensured (db : Db) (d : Definition) (db' : Db) : Prop where
  present : checkVocabulary db' d = .ok .present
  attributes : ∀ k at_, (k, at_) ∈ d.attributes → ∃ a, AMap.get db'.schema.identMap k = some a ∧ db'.schema.attr a = some at_
  others : ∀ a, (∀ k at_, (k, at_) ∈ d.attributes → AMap.get db'.schema.identMap k ≠ some a) →
    db'.schema.attr a = db.schema.attr a
  names : ∀ k a, AMap.get db.schema.identMap k = some a → AMap.get db'.schema.identMap k = some a
  vocabularies : ∀ d1 : Definition, d1.name ≠ d.name → (∀ k x y, (k, x) ∈ d1.attributes → (k, y) ∉ d.attributes) →
    checkVocabulary db d1 = .ok .present → checkVocabulary db' d1 = .ok .present
  core : (∀ k at_, (k, at_) ∈ d.attributes → ∀ b, bootstrapSchema = .ok b → AMap.get b.identMap k = none) →
    CoreIntact db'.schema
  steady : (∀ k at_, (k, at_) ∈ d.attributes → ValidAttribute at_) → ReachSteady db'
  undisturbed : ∀ d1, Apart d d1 → Undisturbed db db' d1
  refs : ∀ e v, Has db.store.rows e DB_SCHEMA_ATTRIBUTE v → Has db'.store.rows e DB_SCHEMA_ATTRIBUTE v

theorem DescRun.newNames {db db' : Db} {d attrs old ts now ids rep} (R : DescRun db d attrs old ts now ids db' rep)
    {e k} (h : Has db'.store.rows e DB_IDENT (.keyword k)) :
    Has db.store.rows e DB_IDENT (.keyword k) ∨ k = d.name ∨ ∃ x, (k, x) ∈ attrs := by
  obtain ⟨σ, F⟩ := R.facts
  rcases F.origin _ _ _ (by decide) h with h | ⟨x, hx, hd⟩
  · exact Or.inl h
  · right
    obtain ⟨t, k', rfl, hn⟩ := ((R.mem x).1 hx).ident hd.2.1.symm
    have : k' = k := by
      have := hd.2.2.2
      simp only [DenotesV] at this
      injection this with this
      exact this.symm
    subst this
    rcases hn with ⟨-, rfl⟩ | ⟨at_, hm, -⟩
    · exact Or.inl rfl
    · exact Or.inr ⟨at_, hm⟩

/-- Every attribute of the core vocabulary has a name in it. -/
theorem boot_named {b : Schema} (hb : bootstrapSchema = .ok b) {a at_} (ha : b.attr a = some at_) :
    ∃ k, AMap.get b.identMap k = some a := by
  have key : bootB (fun b => b.attributeMap.all fun p => b.identMap.any fun q => decide (AMap.get b.identMap q.1 = some p.1)) = true := by
    decide +kernel
  obtain ⟨b', hb', hp⟩ := bootB_spec key
  rw [hb] at hb'
  obtain rfl := Res.ok.inj hb'
  rw [List.all_eq_true] at hp
  have := hp _ (AMap.get_some_mem ha)
  rw [List.any_eq_true] at this
  obtain ⟨q, -, hq⟩ := this
  exact ⟨q.1, of_decide_eq_true hq⟩

theorem core_kept {s s' : Schema} (hc : CoreIntact s)
    (hn : ∀ k a, AMap.get s.identMap k = some a → AMap.get s'.identMap k = some a)
    (hinj : ∀ k k' a, AMap.get s'.identMap k = some a → AMap.get s'.identMap k' = some a → k = k')
    (ho : ∀ a, (∀ k, (∀ b, bootstrapSchema = .ok b → AMap.get b.identMap k = none) → AMap.get s'.identMap k ≠ some a) →
      s'.attr a = s.attr a) : CoreIntact s' := by
  intro b hb
  obtain ⟨h1, h2⟩ := hc b hb
  refine ⟨fun k a h => hn k a (h1 k a h), fun a at_ ha => ?_⟩
  rw [ho a fun k hk hka => ?_]
  · exact h2 a at_ ha
  · obtain ⟨k0, hk0⟩ := boot_named hb ha
    obtain rfl := hinj _ _ _ hka (hn _ _ (h1 _ _ hk0))
    rw [hk b hb] at hk0; cases hk0

theorem described_ensures {db db' : Db} {d attrs old ts now} (hr : ReachSteady db) (hc : CoreIntact db.schema)
    (hsub : ∀ x ∈ attrs, x ∈ d.attributes) (hE : Ensurable db d) (hdn : DistinctNames attrs)
    (hd : describe db.schema d attrs old = .ok ts) (ht : transactBuilt db now ts = .ok db')
    (hs : Suits db attrs fun k => (old k).bind (·.unique))
    (hrest : ∀ k at_, (k, at_) ∈ d.attributes → (k, at_) ∈ attrs ∨
      ∃ e, AMap.get db.schema.identMap d.name = some e ∧ HasAttribute db e k at_) : Ensured db d db' := by
  obtain ⟨rep, htx⟩ := transactBuilt_ok ht
  have R : DescRun db d attrs (fun k => (old k).bind (·.unique)) ts now (tempidsOf ts) db' rep :=
    ⟨hr.safe.kept, hc, fun x => describe_spec hc hd x, hdn, htx⟩
  have him := (identMaps_reach hr.idents).2.1
  have hinv := attrsInv_reach hr
  have A := R.after hinv him hs
  have hrd : ReadableCore db'.schema :=
    ⟨A.persist _ _ hc.readable.version, A.persist _ _ hc.readable.attr, A.still _ hc.readable.version',
      A.still _ hc.readable.attr'⟩
  obtain ⟨n, hn, hv, hat⟩ := A.vocab
  have hir := (rowsInv_reach R.kept).1.identRows hc.identAttr'
  have hinj : ∀ k k' a, AMap.get db'.schema.identMap k = some a → AMap.get db'.schema.identMap k' = some a → k = k' := by
    intro k k' a h1 h2
    obtain ⟨hi, hti⟩ := rowsInv_reach R.kept
    have hir' := identRows_step hi hti hc.identAttr' htx
    have := hir'.one _ _ _ ((A.idents _ _).1 h1) ((A.idents _ _).1 h2)
    injection this
  have hha : ∀ k at_, (k, at_) ∈ d.attributes → HasAttribute db' n k at_ := by
    intro k at_ hm
    rcases hrest k at_ hm with hm' | ⟨e, he, a, h1, h2, h3⟩
    · obtain ⟨a, h1, h2, h3, -⟩ := hat k at_ hm'
      exact ⟨a, h1, h3, h2⟩
    · obtain rfl := Option.some.inj (hn.symm.trans (A.persist _ _ he))
      refine ⟨a, A.persist _ _ h1, A.refs _ _ h2, ?_⟩
      by_cases hx : ∃ k' at', (k', at') ∈ attrs ∧ Has db'.store.rows a DB_IDENT (.keyword k')
      · obtain ⟨k', at', hm', hh⟩ := hx
        have hk' := (A.idents _ _).2 hh
        obtain rfl := hinj _ _ _ (A.persist _ _ h1) hk'
        obtain rfl := hE.names.same' hm (hsub _ hm')
        exact (A.touched hm' hk').1
      · rw [(A.others a fun k' at' hm' hh => hx ⟨k', at', hm', hh⟩).1]
        exact h3
  refine ⟨check_present hrd hn hv hE.version hha, ?_, ?_, A.persist, ?_, ?_, ?_, ?_, A.refs⟩
  · intro k at_ hm
    obtain ⟨a, h1, -, h2⟩ := hha k at_ hm
    exact ⟨a, h1, h2⟩
  · intro a hno
    exact (A.others a fun k at_ hm hh => hno k at_ (hsub _ hm) ((A.idents _ _).2 hh)).1
  · intro d1 hne hdis h1
    have hV := C43_check hc d1
    rw [h1] at hV
    obtain ⟨e, hst, hall⟩ := hV
    have hnot : ¬ Has db'.store.rows e DB_IDENT (.keyword d.name) := fun hh =>
      hne (hinj _ _ _ (A.persist _ _ hst.1) ((A.idents _ _).2 hh))
    refine check_present hrd (A.persist _ _ hst.1) (fun v => ?_) hst.2.2 fun k x hm => ?_
    · rw [A.versions e hnot v]
      exact ⟨fun hh => version_one R.kept hc hh hst.2.1, fun hh => hh ▸ hst.2.1⟩
    · obtain ⟨a, h2, h3, h4⟩ := hall k x hm
      refine ⟨a, A.persist _ _ h2, A.refs _ _ h3, ?_⟩
      rw [(A.others a fun k' y hm' hh => ?_).1]
      · exact h4
      · obtain rfl := hinj _ _ _ (A.persist _ _ h2) ((A.idents _ _).2 hh)
        exact hdis k x y hm (hsub _ hm')
  · intro hfree
    refine core_kept hc A.persist hinj fun a hno => ?_
    exact (A.others a fun k at_ hm hh => hno k (hfree k at_ (hsub _ hm)) ((A.idents _ _).2 hh)).1
  · intro hval
    exact .step hr (described_transacts R) ⟨A.keeps, hc.identAttr', A.moves, hc.schemaOne, A.clean, A.unique,
      R.safe hinv A fun k at_ hm => hval k at_ (hsub _ hm)⟩
  · intro d1 hap
    have same : ∀ k, k ≠ d.name → (∀ x, (k, x) ∉ d.attributes) →
        AMap.get db'.schema.identMap k = AMap.get db.schema.identMap k := by
      intro k h1 h2
      cases h3 : AMap.get db'.schema.identMap k with
      | none =>
        cases h4 : AMap.get db.schema.identMap k with
        | none => rfl
        | some e => rw [A.persist _ _ h4] at h3; cases h3
      | some e =>
        rcases R.newNames ((A.idents _ _).1 h3) with h4 | h4 | ⟨x, h4⟩
        · exact ((him _ _).2 h4).symm
        · exact absurd h4 h1
        · exact absurd (hsub _ h4) (h2 x)
    have hname := same d1.name (fun h => hap.name h.symm) hap.right
    have notd : ∀ e, AMap.get db.schema.identMap d1.name = some e →
        ¬ Has db'.store.rows e DB_IDENT (.keyword d.name) := fun e he hh =>
      hap.name (hinj _ _ _ ((A.idents _ _).2 hh) (A.persist _ _ he))
    refine ⟨hname, fun e he => A.versions e (notd e he), fun e he v => ⟨fun h => ?_, A.refs e v⟩,
      fun k x hm => same k (fun h => hap.left x (h ▸ hm)) fun y hy => hap.attrs k y x hy hm, fun k x a hm ha => ?_⟩
    · exact Classical.by_contradiction fun hn => notd e he (A.refs' e v h hn)
    · refine A.others a fun k' y hm' hh => ?_
      obtain rfl := hinj _ _ _ (A.persist _ _ ha) ((A.idents _ _).2 hh)
      exact hap.attrs k y x (hsub _ hm') hm

/-- What has to be done after a check: vocabulary.rs:691-707. -/
def performCheck (db : Db) (now : Int) (d : Definition) : VCheck → Res (Db × VOutcome)
  | .present => .ok (db, .existed)
  | .notPresent => installVocabulary db now d
  | .needsUpdate v => upgradeVocabulary db now d v
  | .missing m => installAttributesFor db now d m
  | .tooNew _ => .err .other

/-- The result of a check, perhaps of another store, says the truth about this one, as far as the
definition is concerned. -/
def Fits (db : Db) (d : Definition) : VCheck → Prop
  | .needsUpdate w => StoredAs db d.name w.entity w.version ∧ w.version < d.version ∧
      ∀ k at_, (k, at_) ∈ d.attributes → ∀ x, existingAttribute db.schema w k = some x ↔ HasAttribute db w.entity k x
  | .tooNew w => StoredAs db d.name w.entity w.version ∧ d.version < w.version
  | c => Verdict db d (.ok c)

theorem fits_of_check {db : Db} {d : Definition} (hc : CoreIntact db.schema) {c} (h : checkVocabulary db d = .ok c) :
    Fits db d c := by
  have hV := C43_check hc d
  rw [h] at hV
  cases c with
  | needsUpdate w => exact ⟨hV.1.1, hV.2, fun k at_ _ x => hV.1.existing⟩
  | tooNew w => exact ⟨hV.1.1, hV.2⟩
  | present => exact hV
  | notPresent => exact hV
  | missing m => exact hV

theorem perform_ensures {db db' : Db} {now : Int} {d : Definition} {out : VOutcome} {c : VCheck} (hr : ReachSteady db)
    (hc : CoreIntact db.schema) (hE : Ensurable db d) (hpre : ∀ db v, d.pre db v = .ok db)
    (hpost : ∀ db v, d.post db v = .ok db) (hV : Fits db d c) (hp : c ≠ .present)
    (h : performCheck db now d c = .ok (db', out)) : Ensured db d db' := by
  have hk := hr.safe.kept
  have him := (identMaps_reach hr.idents).2.1
  cases c with
  | tooNew v => cases h
  | present => exact absurd rfl hp
  | notPresent =>
    simp only [performCheck, installVocabulary, Res.bind_ok_iff] at h
    obtain ⟨ts, hd, db1, ht, h⟩ := h
    obtain ⟨rfl, -⟩ := Prod.mk.inj (Res.ok.inj h)
    have nost : ∀ e n, ¬ StoredAs db d.name e n := fun e n hs => hV e hs.1 _ hs.2.1
    refine described_ensures hr hc (fun x h => h) hE hE.names hd ht ?_ fun k at_ hm => Or.inl hm
    intro k at_ hm
    refine ⟨hE.noHistory k at_ hm, fun a o ha ho => ⟨fun h1 h2 => ?_, fun h1 h2 b v hb => ?_⟩⟩
    · obtain ⟨e, n, hs, -⟩ := hE.drops k at_ a o hm ((him _ _).2 ha) ho h1 h2
      exact absurd hs (nost e n)
    · exact hE.keeps k at_ a o hm ((him _ _).2 ha) ho h1 h2 (fun e hs => absurd hs (nost e _)) (b, v) hb
  | needsUpdate w =>
    simp only [performCheck, upgradeVocabulary, Res.bind_ok_iff, hpre, hpost, Res.ok.injEq, Prod.mk.injEq] at h
    obtain ⟨_, rfl, ts, hd, db2, ht, _, rfl, h, -⟩ := h
    subst h
    obtain ⟨hst, hlt, hex⟩ := hV
    refine described_ensures hr hc (fun x h => h) hE hE.names hd ht ?_ fun k at_ hm => Or.inl hm
    intro k at_ hm
    refine ⟨hE.noHistory k at_ hm, fun a o ha ho => ⟨fun h1 h2 => ?_, fun h1 h2 b v hb => ?_⟩⟩
    · obtain ⟨e, n, hs, hn, hh⟩ := hE.drops k at_ a o hm ((him _ _).2 ha) ho h1 h2
      obtain ⟨hee, -⟩ := hs.one hk hc hst
      subst hee
      show (existingAttribute db.schema w k).bind (·.unique) = _
      rw [(hex k at_ hm o).2 ⟨a, (him _ _).2 ha, hh, ho⟩]
      rfl
    · refine hE.keeps k at_ a o hm ((him _ _).2 ha) ho h1 h2 (fun e hs => ?_) (b, v) hb
      have := (hs.one hk hc hst).2
      omega
  | missing m =>
    simp only [performCheck, installAttributesFor, Res.bind_ok_iff] at h
    obtain ⟨ts, hd, db1, ht, h⟩ := h
    obtain ⟨rfl, -⟩ := Prod.mk.inj (Res.ok.inj h)
    obtain ⟨e, hst, hne, hsub, hm1, hm2⟩ := hV
    have hdn : DistinctNames m := by
      unfold DistinctNames
      exact List.Sublist.nodup (hsub.map _) hE.names
    refine described_ensures hr hc (fun x h => hsub.subset h) hE hdn hd ht ?_ ?_
    · intro k at_ hm
      have hmd := hsub.subset hm
      refine ⟨hE.noHistory k at_ hmd, fun a o ha ho => ⟨fun h1 h2 => ?_, fun h1 h2 b v hb => ?_⟩⟩
      · obtain ⟨e', n, hs, hn, -⟩ := hE.drops k at_ a o hmd ((him _ _).2 ha) ho h1 h2
        have := (hs.one hk hc hst).2
        omega
      · refine hE.keeps k at_ a o hmd ((him _ _).2 ha) ho h1 h2 (fun e' hs hh => ?_) (b, v) hb
        obtain ⟨rfl, -⟩ := hs.one hk hc hst
        exact (hm1 k at_ hmd).1 hm o ⟨a, (him _ _).2 ha, hh, ho⟩
    · intro k at_ hm
      by_cases hin : (k, at_) ∈ m
      · exact Or.inl hin
      · right
        have : ¬ ∀ x, ¬ HasAttribute db e k x := fun h => hin ((hm1 k at_ hm).2 h)
        obtain ⟨x, hx⟩ := Classical.not_forall.1 this
        have hx := Classical.not_not.1 hx
        obtain rfl := hm2 k at_ hm x hx
        exact ⟨e, hst.1, hx⟩

theorem ensure_ensures {db db' : Db} {now : Int} {d : Definition} {out : VOutcome} (hr : ReachSteady db)
    (hc : CoreIntact db.schema) (hE : Ensurable db d) (hpre : ∀ db v, d.pre db v = .ok db)
    (hpost : ∀ db v, d.post db v = .ok db) (h : ensureVocabulary db now d = .ok (db', out)) : Ensured db d db' := by
  unfold ensureVocabulary at h
  rw [Res.bind_ok_iff] at h
  obtain ⟨c, hchk, h⟩ := h
  have h : performCheck db now d c = .ok (db', out) := by cases c <;> exact h
  by_cases hp : c = .present
  · subst hp
    have hV := C43_check hc d
    rw [hchk] at hV
    obtain ⟨rfl, -⟩ := Prod.mk.inj (Res.ok.inj h)
    obtain ⟨e, -, h2⟩ := hV
    refine ⟨hchk, fun k at_ hm => ?_, fun _ _ => rfl, fun _ _ h => h, fun _ _ _ h => h, fun _ => hc, fun _ => hr,
      fun _ _ => ⟨rfl, fun _ _ _ => Iff.rfl, fun _ _ _ => Iff.rfl, fun _ _ _ => rfl, fun _ _ _ _ _ => ⟨rfl, fun _ _ _ => Iff.rfl⟩⟩,
      fun _ _ h => h⟩
    obtain ⟨a, h1, -, h3⟩ := h2 k at_ hm
    exact ⟨a, h1, h3⟩
  · exact perform_ensures hr hc hE hpre hpost (fits_of_check hc hchk) hp h

/-- C43: after a successful ensure, a check reports that the vocabulary is present; see `Ensured` for
the rest.  (Missing: definitions that are not `Ensurable`, for which this can fail, see below, and
functions that run before and after an upgrade, which may do anything.) -/
theorem C43_ensured_partial {db db' : Db} {now : Int} {d : Definition} {out : VOutcome} (hr : ReachSteady db)
    (hc : CoreIntact db.schema) (hE : Ensurable db d) (hpre : ∀ db v, d.pre db v = .ok db)
    (hpost : ∀ db v, d.post db v = .ok db) (h : ensureVocabulary db now d = .ok (db', out)) :
    checkVocabulary db' d = .ok .present ∧ Ensured db d db' :=
  have := ensure_ensures hr hc hE hpre hpost h
  ⟨this.present, this⟩

/-- C43: ensuring the same definition again changes nothing. -/
theorem C43_again_partial {db db' : Db} {now now' : Int} {d : Definition} {out : VOutcome} (hr : ReachSteady db)
    (hc : CoreIntact db.schema) (hE : Ensurable db d) (hpre : ∀ db v, d.pre db v = .ok db)
    (hpost : ∀ db v, d.post db v = .ok db) (h : ensureVocabulary db now d = .ok (db', out)) :
    ensureVocabulary db' now' d = .ok (db', .existed) := by
  unfold ensureVocabulary
  rw [(ensure_ensures hr hc hE hpre hpost h).present]
  rfl

/-- C43: a newer vocabulary is never touched, nor one that contradicts the definition. -/
theorem C43_refused {db : Db} {now : Int} {d : Definition} (hc : CoreIntact db.schema) (hr : ReachKept db) {e : Entid}
    (h : (∃ n, StoredAs db d.name e n ∧ d.version < n) ∨
      StoredAs db d.name e d.version ∧ ∃ k at_ x, (k, at_) ∈ d.attributes ∧ HasAttribute db e k x ∧ x ≠ at_) :
    ∃ err, ensureVocabulary db now d = .err err := by
  have hV := C43_check hc d
  unfold ensureVocabulary
  cases hchk : checkVocabulary db d with
  | panic => rw [hchk] at hV; exact hV.elim
  | err x => exact ⟨x, rfl⟩
  | ok c =>
    rw [hchk] at hV
    rcases h with ⟨n, hs, hlt⟩ | hbad
    · cases c with
      | tooNew v => exact ⟨_, rfl⟩
      | notPresent => exact absurd hs.2.1 (hV _ hs.1 _)
      | present =>
        obtain ⟨e', h1, -⟩ := hV
        have := (hs.one hr hc h1).2; omega
      | needsUpdate v =>
        have := (hs.one hr hc hV.1.1).2; have := hV.2; omega
      | missing m =>
        obtain ⟨e', h1, -⟩ := hV
        have := (hs.one hr hc h1).2; omega
    · have : Verdict db d (.err .other) := ⟨e, hbad.1.1, Or.inr hbad⟩
      have hk := C43_exclusive hr hc hV this
      cases c <;> exact absurd hk (by simp [VCheck.kind])

/-! ### The core vocabulary itself -/

/-- C43: the core schema is accepted when the store has it at version 1, and not otherwise. -/
theorem C43_core {db : Db} (hr : ReachKept db) (hc : CoreIntact db.schema) :
    verifyCoreSchema db = .ok () ↔ ∃ e, StoredAs db kwCore e 1 := by
  have hs := readNamed_spec hc.readable kwCore
  unfold verifyCoreSchema
  cases h : readVocabularyNamed db kwCore with
  | panic => rw [h] at hs; exact hs.elim
  | err x =>
    rw [h] at hs
    obtain ⟨e, v, h1, h2, h3⟩ := hs
    refine ⟨fun h => (by cases h), fun ⟨e', hst⟩ => ?_⟩
    obtain rfl := Option.some.inj (h1.symm.trans hst.1)
    exact absurd ⟨1, version_one hr hc h2 hst.2.1, hst.2.2⟩ h3
  | ok o =>
    rw [h] at hs
    cases o with
    | none =>
      exact ⟨fun h => (by cases h), fun ⟨e, hst⟩ => absurd hst.2.1 (hs _ hst.1 _)⟩
    | some v =>
      have hs : IsStored db kwCore v := hs
      show (if v.version = 1 then Res.ok () else _) = _ ↔ _
      by_cases hv : v.version = 1
      · rw [if_pos hv]
        exact ⟨fun _ => ⟨v.entity, hv ▸ hs.1⟩, fun _ => rfl⟩
      · rw [if_neg hv]
        refine ⟨fun h => (by cases h), fun ⟨e, hst⟩ => ?_⟩
        exact absurd (hs.1.one hr hc hst).2 hv

/-! ### Reading them all -/

theorem foldl_insert_get {α : Type} {name : α → Option Keyword} {val : α → Vocabulary} :
    ∀ (l : List α) (m : AMap Keyword Vocabulary) (k : Keyword) (v : Vocabulary),
    AMap.get (l.foldl (fun m x => match name x with
      | some n => AMap.insert m n (val x)
      | none => m) m) k = some v →
    (∃ x ∈ l, name x = some k ∧ val x = v) ∨ AMap.get m k = some v := by
  intro l
  induction l with
  | nil => intro m k v h; exact Or.inr h
  | cons x r ih =>
    intro m k v h
    rw [List.foldl_cons] at h
    rcases ih _ k v h with ⟨y, hy, h1, h2⟩ | h1
    · exact Or.inl ⟨y, List.mem_cons_of_mem _ hy, h1, h2⟩
    · cases hn : name x with
      | none => rw [hn] at h1; exact Or.inr h1
      | some n =>
        rw [hn] at h1
        by_cases hk : k = n
        · subst hk
          rw [show AMap.get (AMap.insert m k (val x)) k = some (val x) from AMap.get_insert_self ..] at h1
          exact Or.inl ⟨x, by simp, hn, Option.some.inj h1⟩
        · rw [show AMap.get (AMap.insert m n (val x)) k = AMap.get m k from AMap.get_insert_ne _ _ (Ne.symm hk)] at h1
          exact Or.inr h1

theorem foldl_insert_isSome {α : Type} {name : α → Option Keyword} {val : α → Vocabulary} (k : Keyword) :
    ∀ (l : List α) (m : AMap Keyword Vocabulary),
    ((∃ x ∈ l, name x = some k) ∨ (AMap.get m k).isSome = true) →
    (AMap.get (l.foldl (fun m x => match name x with
      | some n => AMap.insert m n (val x)
      | none => m) m) k).isSome = true := by
  intro l
  induction l with
  | nil => rintro m (⟨x, hx, -⟩ | h); cases hx; exact h
  | cons x r ih =>
    intro m h
    rw [List.foldl_cons]
    apply ih
    have keep : (AMap.get m k).isSome = true → (AMap.get (match name x with
        | some n => AMap.insert m n (val x)
        | none => m) k).isSome = true := by
      intro hm
      cases hn : name x with
      | none => exact hm
      | some n =>
        by_cases hk : k = n
        · subst hk
          rw [show AMap.get (AMap.insert m k (val x)) k = some (val x) from AMap.get_insert_self ..]; rfl
        · rw [show AMap.get (AMap.insert m n (val x)) k = AMap.get m k from AMap.get_insert_ne _ _ (Ne.symm hk)]; exact hm
    rcases h with ⟨y, hy, h⟩ | h
    · rw [List.mem_cons] at hy
      rcases hy with rfl | hy
      · right
        rw [h]
        rw [show AMap.get (AMap.insert m k (val y)) k = some (val y) from AMap.get_insert_self ..]; rfl
      · exact Or.inl ⟨y, hy, h⟩
    · exact Or.inr (keep h)

theorem mem_dbPairsOf {db : Db} {e a v} (h : (db.schema.attr a).isSome = true) :
    (e, v) ∈ db.pairsOf a ↔ Has db.store.rows e a v := by
  unfold Db.pairsOf Has
  rw [if_pos h]
  simp only [List.mem_map, List.mem_filter, decide_eq_true_eq, Prod.mk.injEq]
  constructor
  · rintro ⟨r, ⟨h1, h2⟩, h3, h4⟩; exact ⟨r, h1, h3, h2, h4⟩
  · rintro ⟨r, h1, h2, h3, h4⟩; exact ⟨r, ⟨h1, h3⟩, h2, h4⟩

/-- C43: reading all vocabularies finds each that the store has, with its version and its attributes,
and nothing else. -/
theorem C43_read_all_partial {db : Db} (hr : ReachIdents db) (hc : CoreIntact db.schema) (name : Keyword) :
    (∀ v, AMap.get (readVocabularies db) name = some v → IsStored db name v) ∧
    ∀ e n, StoredAs db name e n → ∃ v, AMap.get (readVocabularies db) name = some v ∧ v.entity = e ∧ v.version = n := by
  have hinv := C35_inverse_partial hr
  have hk := hr.kept
  have hrd := hc.readable
  unfold readVocabularies
  simp only [hrd.version, hrd.attr]
  have hver : ∀ (e : Entid) (n : Nat), (e, n) ∈ (db.pairsOf DB_SCHEMA_VERSION).filterMap (fun (e, v) => (versionOf v).map fun n => (e, n)) ↔
      Has db.store.rows e DB_SCHEMA_VERSION (.long n) ∧ 0 < n ∧ n < 4294967295 := by
    intro e n
    rw [List.mem_filterMap]
    constructor
    · rintro ⟨⟨e', v⟩, hm, h⟩
      simp only [Option.map_eq_some_iff, Prod.mk.injEq] at h
      obtain ⟨n', hn, rfl, rfl⟩ := h
      obtain ⟨rfl, h0⟩ := versionOf_some hn
      exact ⟨(mem_dbPairsOf hrd.version').1 hm, h0⟩
    · rintro ⟨h1, h2, h3⟩
      exact ⟨(e, .long n), (mem_dbPairsOf hrd.version').2 h1, by simp [versionOf_long h2 h3]⟩
  have hat : ∀ e a at_, (a, at_) ∈ attributesOf db.schema
      (((db.pairsOf DB_SCHEMA_ATTRIBUTE).filter fun p => decide (p.1 = e)).map (·.2)) ↔
      Has db.store.rows e DB_SCHEMA_ATTRIBUTE (.ref a) ∧ db.schema.attr a = some at_ := by
    intro e a at_
    rw [mem_attributesOf]
    have : TypedValue.ref a ∈ ((db.pairsOf DB_SCHEMA_ATTRIBUTE).filter fun p => decide (p.1 = e)).map (·.2) ↔
        Has db.store.rows e DB_SCHEMA_ATTRIBUTE (.ref a) := by
      rw [← mem_dbPairsOf hrd.attr']
      simp only [List.mem_map, List.mem_filter, decide_eq_true_eq]
      constructor
      · rintro ⟨⟨e', v⟩, ⟨hm, rfl⟩, rfl⟩; exact hm
      · intro h; exact ⟨(e, .ref a), ⟨h, rfl⟩, rfl⟩
    rw [this]
  refine ⟨fun v hv => ?_, fun e n hs => ?_⟩
  · rcases foldl_insert_get (name := fun p : Entid × Nat => AMap.get db.schema.entidMap p.1)
      (val := fun p => ⟨p.1, p.2, _⟩) _ _ _ _ hv with ⟨⟨e, n⟩, hm, hn, rfl⟩ | h
    · obtain ⟨h1, h2⟩ := (hver e n).1 hm
      exact ⟨⟨(hinv _ _).2 hn, h1, h2⟩, hat e⟩
    · cases h
  · have hsome := foldl_insert_isSome (name := fun p : Entid × Nat => AMap.get db.schema.entidMap p.1)
      (val := fun p => ⟨p.1, p.2, attributesOf db.schema
        (((db.pairsOf DB_SCHEMA_ATTRIBUTE).filter fun q => decide (q.1 = p.1)).map (·.2))⟩) name _ []
      (Or.inl ⟨(e, n), (hver e n).2 hs.2, (hinv _ _).1 hs.1⟩)
    obtain ⟨v, hv⟩ := Option.isSome_iff_exists.1 hsome
    refine ⟨v, hv, ?_⟩
    rcases foldl_insert_get _ _ _ _ hv with ⟨⟨e', n'⟩, hm, hn, rfl⟩ | h
    · obtain ⟨h1, h2⟩ := (hver e' n').1 hm
      obtain ⟨rfl, rfl⟩ := hs.one hk hc (⟨(hinv _ _).2 hn, h1, h2⟩ : StoredAs db name e' n')
      exact ⟨rfl, rfl⟩
    · cases h

/-! ### Examples -/

def coreB (s : Schema) : Bool :=
  bootB fun b => (b.identMap.all fun p => decide (AMap.get s.identMap p.1 = some p.2)) &&
    b.attributeMap.all fun p => decide (s.attr p.1 = some p.2)

theorem coreB_spec {s : Schema} (h : coreB s = true) : CoreIntact s := by
  obtain ⟨b, hb, hp⟩ := bootB_spec h
  rw [Bool.and_eq_true, List.all_eq_true, List.all_eq_true] at hp
  intro b' hb'
  rw [hb] at hb'
  obtain rfl := Res.ok.inj hb'
  exact ⟨fun k e hk => of_decide_eq_true (hp.1 _ (AMap.get_some_mem hk)),
    fun e at_ ha => of_decide_eq_true (hp.2 _ (AMap.get_some_mem ha))⟩

instance (attrs : List (Keyword × Attribute)) : Decidable (DistinctNames attrs) := by
  unfold DistinctNames; infer_instance

def ensurableB (db : Db) (d : Definition) : Bool :=
  let stored := fun (p : Nat → Bool) (a : Entid) => match readVocabularyNamed db d.name with
    | .ok (some v) => p v.version && (v.find a).isSome
    | _ => false
  decide (0 < d.version ∧ d.version < 4294967295) &&
  decide (DistinctNames d.attributes) &&
  d.attributes.all fun p => decide (p.2.noHistory = false) &&
    match AMap.get db.schema.identMap p.1 with
    | none => true
    | some a => match db.schema.attr a with
      | none => true
      | some o =>
        (p.2.unique.isSome || o.unique.isNone || stored (fun n => decide (n < d.version)) a) &&
        (p.2.unique.isNone || decide (o.unique ≠ p.2.unique) || stored (fun n => decide (n = d.version)) a ||
          (describing p.2).all fun q => hasB db a q.1 q.2)

theorem ensurableB_spec {db : Db} (hc : CoreIntact db.schema) {d : Definition} (h : ensurableB db d = true) :
    Ensurable db d := by
  unfold ensurableB at h
  simp only [Bool.and_eq_true, decide_eq_true_eq, List.all_eq_true] at h
  obtain ⟨⟨h1, h2⟩, h3⟩ := h
  have hst : ∀ (p : Nat → Bool) (a : Entid), (match readVocabularyNamed db d.name with
      | .ok (some v) => p v.version && (v.find a).isSome
      | _ => false) = true → ∃ e n, StoredAs db d.name e n ∧ p n = true ∧ Has db.store.rows e DB_SCHEMA_ATTRIBUTE (.ref a) := by
    intro p a h
    have hs := readNamed_spec hc.readable d.name
    cases hr : readVocabularyNamed db d.name with
    | panic => rw [hr] at h; cases h
    | err _ => rw [hr] at h; cases h
    | ok o =>
      cases o with
      | none => rw [hr] at h; cases h
      | some v =>
        rw [hr] at h hs
        have hs : IsStored db d.name v := hs
        simp only [Bool.and_eq_true] at h
        obtain ⟨x, hx⟩ := Option.isSome_iff_exists.1 h.2
        exact ⟨_, _, hs.1, h.1, (hs.find.1 hx).1⟩
  refine ⟨h1, h2, fun k at_ hm => (h3 _ hm).1, ?_, ?_⟩
  · intro k at_ a o hm hk ho hu hou
    have := (h3 _ hm).2
    simp only [hk, ho, hu, Bool.and_eq_true, Bool.or_eq_true] at this
    rcases this.1 with (h | h) | h
    · cases h
    · exact absurd (Option.isNone_iff_eq_none.1 h) hou
    · obtain ⟨e, n, i1, i2, i3⟩ := hst (fun n => decide (n < d.version)) a h
      exact ⟨e, n, i1, of_decide_eq_true i2, i3⟩
  · intro k at_ a o hm hk ho hu hou hno p hp
    have := (h3 _ hm).2
    simp only [hk, ho, Bool.and_eq_true, Bool.or_eq_true] at this
    rcases this.2 with ((h | h) | h) | h
    · exact absurd (Option.isNone_iff_eq_none.1 h) hu
    · exact absurd hou (of_decide_eq_true h)
    · obtain ⟨e, n, i1, i2, i3⟩ := hst (fun n => decide (n = d.version)) a h
      obtain rfl := of_decide_eq_true i2
      exact absurd i3 (hno e i1)
    · rw [List.all_eq_true] at h
      exact hasB_iff.1 (h p hp)

theorem boot_core : CoreIntact bootDb.schema := coreB_spec (by decide +kernel)

/-- A vocabulary of people: a unique email address and a name. -/
def people : Definition := .new (kw "x" "people") 1
  [(kw "person" "email", { valueType := .string, unique := some .identity, index := true }),
   (kw "person" "name", { valueType := .string })]

/-- The next version: people have many names, and an age. -/
def people2 : Definition := .new (kw "x" "people") 2
  [(kw "person" "email", { valueType := .string, unique := some .identity, index := true }),
   (kw "person" "name", { valueType := .string, multival := true }),
   (kw "person" "age", { valueType := .long })]

/-- After some thought: the email address is no longer unique; and then people also have a home. -/
def people3 : Definition := .new (kw "x" "people") 3
  [(kw "person" "email", { valueType := .string, index := true }),
   (kw "person" "name", { valueType := .string, multival := true })]

def people4 : Definition := .new (kw "x" "people") 3
  [(kw "person" "email", { valueType := .string, index := true }),
   (kw "person" "name", { valueType := .string, multival := true }),
   (kw "person" "home", { valueType := .ref, component := true })]

/-- Ensure the definitions one after the other, checking the conditions and the outcomes. -/
def ensureRun : List (Definition × VOutcome) → Db → Bool
  | [], _ => true
  | (d, o) :: r, db => ensurableB db d && coreB db.schema &&
    match ensureVocabulary db 0 d with
    | .ok (db', o') => decide (o = o') && ensureRun r db'
    | _ => false

/-- Installing, upgrading twice, adding what is missing and finding it all there. -/
theorem people_run : ensureRun [(people, .installed), (people, .existed), (people2, .upgraded), (people3, .upgraded),
    (people4, .installedMissing), (people4, .existed)] bootDb = true := by decide +kernel

/-- Ensure the definitions one after the other. -/
inductive EnsureAll : Db → List (Definition × VOutcome) → Db → Prop
  | nil (db) : EnsureAll db [] db
  | cons {db db' db'' d o r} : Ensurable db d → CoreIntact db.schema → ReachSteady db →
      ensureVocabulary db 0 d = .ok (db', o) → EnsureAll db' r db'' → EnsureAll db ((d, o) :: r) db''

theorem ensureRun_spec : ∀ (l : List (Definition × VOutcome)) (db : Db), ReachSteady db →
    (∀ p ∈ l, (∀ db v, p.1.pre db v = .ok db) ∧ (∀ db v, p.1.post db v = .ok db) ∧
      ∀ k at_, (k, at_) ∈ p.1.attributes → ValidAttribute at_) →
    ensureRun l db = true → ∃ db', EnsureAll db l db' := by
  intro l
  induction l with
  | nil => intro db _ _ _; exact ⟨db, .nil db⟩
  | cons p r ih =>
    intro db hr hp h
    obtain ⟨d, o⟩ := p
    unfold ensureRun at h
    simp only [Bool.and_eq_true] at h
    obtain ⟨⟨h1, h2⟩, h3⟩ := h
    have hc := coreB_spec h2
    have hE := ensurableB_spec hc h1
    cases he : ensureVocabulary db 0 d with
    | err _ => rw [he] at h3; cases h3
    | panic => rw [he] at h3; cases h3
    | ok q =>
      obtain ⟨db', o'⟩ := q
      rw [he] at h3
      simp only [Bool.and_eq_true, decide_eq_true_eq] at h3
      obtain ⟨rfl, h3⟩ := h3
      obtain ⟨q1, q2, q3⟩ := hp (d, o) (by simp)
      obtain ⟨db'', hall⟩ := ih db' ((ensure_ensures hr hc hE q1 q2 he).steady q3)
        (fun p hm => hp p (List.mem_cons_of_mem _ hm)) h3
      exact ⟨db'', .cons hE hc hr he hall⟩

/-- The conditions of `C43_ensured_partial` are met on the way through all four outcomes. -/
theorem C43_example : ∃ db, EnsureAll bootDb [(people, .installed), (people, .existed), (people2, .upgraded),
    (people3, .upgraded), (people4, .installedMissing), (people4, .existed)] db := by
  refine ensureRun_spec _ _ (.boot bootDb_eq) ?_ people_run
  intro p hp
  simp only [List.mem_cons, List.not_mem_nil, or_false] at hp
  have valid : ∀ d ∈ [people, people2, people3, people4], ∀ q ∈ d.attributes, q.2.valid = true := by decide
  have key : ∀ d ∈ [people, people2, people3, people4], (∀ db v, d.pre db v = .ok db) ∧ (∀ db v, d.post db v = .ok db) ∧
      ∀ k at_, (k, at_) ∈ d.attributes → ValidAttribute at_ := by
    intro d hd
    refine ⟨?_, ?_, fun k at_ hm => valid_iff.1 (valid d hd _ hm)⟩
    all_goals
      intro db v
      simp only [List.mem_cons, List.not_mem_nil, or_false] at hd
      rcases hd with rfl | rfl | rfl | rfl <;> rfl
  rcases hp with rfl | rfl | rfl | rfl | rfl | rfl
  · exact key _ (by simp)
  · exact key _ (by simp)
  · exact key _ (by simp)
  · exact key _ (by simp)
  · exact key _ (by simp)
  · exact key _ (by simp)

/-- The core vocabulary of a new store is the expected one. -/
theorem C43_core_example : verifyCoreSchema bootDb = .ok () ∧ ReachKept bootDb ∧ CoreIntact bootDb.schema :=
  ⟨by decide +kernel, .boot bootDb_eq, boot_core⟩

/-- What a check finds after the definition was ensured. -/
def ensureThenCheck (db : Db) (d : Definition) : Option (Res VCheck) :=
  match ensureVocabulary db 0 d with
  | .ok (db', _) => some (checkVocabulary db' d)
  | _ => none

theorem ensureThenCheck_fails {db : Db} {d : Definition} (h : ensureThenCheck db d = some (.err .other)) :
    ∃ db' o, ensureVocabulary db 0 d = .ok (db', o) ∧ checkVocabulary db' d = .err .other := by
  unfold ensureThenCheck at h
  cases he : ensureVocabulary db 0 d with
  | err _ => rw [he] at h; cases h
  | panic => rw [he] at h; cases h
  | ok p =>
    rw [he] at h
    exact ⟨p.1, p.2, rfl, Option.some.inj h⟩

/-- C43 fails for the versions 0 and `u32::MAX`: they are installed, and then make every check, and
every further ensure, fail. -/
theorem C43_fails_version : ∀ n ∈ [0, 4294967295], ∃ db' o,
    ensureVocabulary bootDb 0 (.new (kw "x" "people") n people.attributes) = .ok (db', o) ∧
    checkVocabulary db' (.new (kw "x" "people") n people.attributes) = .err .other := by
  intro n hn
  apply ensureThenCheck_fails
  revert n
  decide +kernel

/-- C43 fails for attributes without history: `:db/noHistory` is written but never read. -/
theorem C43_fails_no_history : ∃ db' o,
    ensureVocabulary bootDb 0 (.new (kw "x" "people") 1 [(kw "person" "name", { valueType := .string, noHistory := true })]) =
      .ok (db', o) ∧
    checkVocabulary db' (.new (kw "x" "people") 1 [(kw "person" "name", { valueType := .string, noHistory := true })]) =
      .err .other := by
  apply ensureThenCheck_fails
  decide +kernel

/-- C43 fails for an upgrade that alters a unique attribute and leaves it unique: the schema in memory
forgets that it is unique. -/
theorem C43_fails_upgrade_unique : ∃ db db' o, ReachSteady db ∧ CoreIntact db.schema ∧
    ensureVocabulary db 0 (.new (kw "x" "people") 2
      [(kw "person" "email", { valueType := .string, unique := some .identity, index := true, multival := true })]) =
      .ok (db', o) ∧
    checkVocabulary db' (.new (kw "x" "people") 2
      [(kw "person" "email", { valueType := .string, unique := some .identity, index := true, multival := true })]) =
      .err .other := by
  have key : (match ensureVocabulary bootDb 0 people with
    | .ok (db, _) => coreB db.schema && decide (ensureThenCheck db (.new (kw "x" "people") 2
      [(kw "person" "email", { valueType := .string, unique := some .identity, index := true, multival := true })]) =
        some (.err .other))
    | _ => false) = true := by decide +kernel
  have hE : Ensurable bootDb people := ensurableB_spec boot_core (by decide +kernel)
  cases he : ensureVocabulary bootDb 0 people with
  | err _ => rw [he] at key; cases key
  | panic => rw [he] at key; cases key
  | ok p =>
    rw [he] at key
    simp only [Bool.and_eq_true, decide_eq_true_eq] at key
    obtain ⟨db', o, h1, h2⟩ := ensureThenCheck_fails key.2
    refine ⟨p.1, db', o, ?_, coreB_spec key.1, h1, h2⟩
    refine (ensure_ensures (.boot bootDb_eq) boot_core hE (fun _ _ => rfl) (fun _ _ => rfl) he).steady ?_
    have valid : ∀ q ∈ people.attributes, q.2.valid = true := by decide
    exact fun k at_ hm => valid_iff.1 (valid _ hm)

/-- An attribute made without a vocabulary, but with all the datoms of one. -/
def emailTx : Tx :=
  ([addT "email" DB_IDENT (.keyword (kw "person" "email")), addT "email" DB_VALUE_TYPE (.ref DB_TYPE_STRING),
    addT "email" DB_CARDINALITY (.ref DB_CARDINALITY_ONE), addT "email" DB_UNIQUE (.ref DB_UNIQUE_IDENTITY),
    addT "email" DB_INDEX (.boolean true), addT "email" DB_FULLTEXT (.boolean false),
    addT "email" DB_IS_COMPONENT (.boolean false)], [tid "email"])

/-- The uniqueness of an attribute that is not part of a vocabulary yet is not taken away by a
definition without it, and then contradicts it. -/
theorem C43_fails_adopted : ∃ db db' o, ReachSteady db ∧ CoreIntact db.schema ∧
    ensureVocabulary db 0 people3 = .ok (db', o) ∧ checkVocabulary db' people3 = .err .other := by
  have key : (runWith steadyB [emailTx] bootDb).any (fun db => coreB db.schema &&
      decide (ensureThenCheck db people3 = some (.err .other))) = true := by decide +kernel
  cases hrun : runWith steadyB [emailTx] bootDb with
  | none => rw [hrun] at key; cases key
  | some db =>
    rw [hrun] at key
    simp only [Option.any_some, Bool.and_eq_true, decide_eq_true_eq] at key
    obtain ⟨db', o, h1, h2⟩ := ensureThenCheck_fails key.2
    refine ⟨db, db', o, runWith_induct (P := ReachSteady) ?_ (.boot bootDb_eq) hrun, coreB_spec key.1, h1, h2⟩
    intro db db' h ht hk ho
    simp only [steadyB, identsOkB, Bool.and_eq_true] at ho
    obtain ⟨⟨⟨⟨⟨o1, o2⟩, o3⟩, o4⟩, o5⟩, o6⟩ := ho
    exact .step h ht ⟨hk, identAttrB_spec o1, noIdentMovesB_spec o2, schemaOneB_iff.1 o3,
      cleanRemovalB_spec o4, keepsUniqueB_spec o5, safeB_spec o6⟩

end Mentat
