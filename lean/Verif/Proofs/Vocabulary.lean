import Verif.Model.Vocabulary
import Verif.Props.Schema
import Verif.Proofs.Entities
/- What installing a vocabulary does to the store. -/
namespace Mentat

/-! ### The core vocabulary -/

/-- Nothing has renamed, removed or redefined an ident or an attribute of the core vocabulary. -/
def CoreIntact (s : Schema) : Prop :=
  ∀ b, bootstrapSchema = .ok b → (∀ k e, AMap.get b.identMap k = some e → AMap.get s.identMap k = some e) ∧
    ∀ e at_, b.attr e = some at_ → s.attr e = some at_

def bootB (p : Schema → Bool) : Bool :=
  match bootstrapSchema with
  | .ok b => p b
  | _ => false

theorem bootB_spec {p : Schema → Bool} (h : bootB p = true) : ∃ b, bootstrapSchema = .ok b ∧ p b = true := by
  unfold bootB at h
  cases hb : bootstrapSchema with
  | ok b => rw [hb] at h; exact ⟨b, rfl, h⟩
  | err _ => rw [hb] at h; cases h
  | panic => rw [hb] at h; cases h

theorem CoreIntact.ident {s : Schema} (h : CoreIntact s) {k : Keyword} {e : Entid}
    (hk : bootB (fun b => decide (AMap.get b.identMap k = some e)) = true) : AMap.get s.identMap k = some e := by
  obtain ⟨b, hb, hp⟩ := bootB_spec hk
  exact (h b hb).1 k e (of_decide_eq_true hp)

theorem CoreIntact.attr {s : Schema} (h : CoreIntact s) {e : Entid} {p : Attribute → Bool}
    (hk : bootB (fun b => (b.attr e).any p) = true) : ∃ at_, s.attr e = some at_ ∧ p at_ = true := by
  obtain ⟨b, hb, hp⟩ := bootB_spec hk
  rw [Option.any_eq_true] at hp
  obtain ⟨at_, h1, h2⟩ := hp
  exact ⟨at_, (h b hb).2 e at_ h1, h2⟩

theorem CoreIntact.identAttr {s : Schema} (h : CoreIntact s) :
    ∃ at_, s.attr DB_IDENT = some at_ ∧ at_.valueType = .keyword ∧ at_.multival = false ∧
      at_.unique = some .identity ∧ at_.index = true := by
  obtain ⟨at_, h1, h2⟩ := h.attr (e := DB_IDENT) (p := fun at_ => decide (at_.valueType = .keyword ∧
    at_.multival = false ∧ at_.unique = some .identity ∧ at_.index = true)) (by decide +kernel)
  exact ⟨at_, h1, of_decide_eq_true h2⟩

theorem CoreIntact.identAttr' {s : Schema} (h : CoreIntact s) : IdentAttr s := by
  obtain ⟨at_, h1, h2, h3, h4, -⟩ := h.identAttr
  exact ⟨at_, h1, h2, h3, by rw [h4]; rfl⟩

theorem CoreIntact.one {s : Schema} (h : CoreIntact s) {a : Entid}
    (ha : bootB (fun b => (b.attr a).any fun at_ => !at_.multival) = true) :
    ∃ at_, s.attr a = some at_ ∧ at_.multival = false := by
  obtain ⟨at_, h1, h2⟩ := h.attr ha
  exact ⟨at_, h1, by simpa using h2⟩

theorem CoreIntact.schemaOne {s : Schema} (h : CoreIntact s) : SchemaOne s := by
  intro a ha
  have key : ∀ a ∈ schemaList, bootB (fun b => (b.attr a).any fun at_ => !at_.multival) = true := by
    decide +kernel
  exact h.one (key a ha)

/-- The attributes a description uses, but for `:db/ident`. -/
def descList : List Entid :=
  [DB_SCHEMA_VERSION, DB_SCHEMA_ATTRIBUTE, DB_VALUE_TYPE, DB_CARDINALITY, DB_INDEX, DB_FULLTEXT,
    DB_IS_COMPONENT, DB_NO_HISTORY, DB_UNIQUE]

theorem CoreIntact.notIdentity {s : Schema} (h : CoreIntact s) {a : Entid} (ha : a ∈ descList) :
    ¬ IsIdentity s a := by
  have key : ∀ a ∈ descList, bootB (fun b => (b.attr a).any fun at_ => decide (at_.unique ≠ some .identity)) = true := by
    decide +kernel
  obtain ⟨at_, h1, h2⟩ := h.attr (key a ha)
  rintro ⟨at2, h3, h4⟩
  rw [h1] at h3
  obtain rfl := Option.some.inj h3
  exact of_decide_eq_true h2 h4

theorem CoreIntact.isSome {s : Schema} (h : CoreIntact s) {a : Entid} (ha : a ∈ DB_IDENT :: descList) :
    (s.attr a).isSome = true := by
  have key : ∀ a ∈ DB_IDENT :: descList, bootB (fun b => (b.attr a).any fun _ => true) = true := by decide +kernel
  obtain ⟨at_, h1, -⟩ := h.attr (key a ha)
  rw [h1]; rfl

/-- The entity of a value type. -/
def typeEntid : ValueType → Entid
  | .ref => DB_TYPE_REF
  | .boolean => DB_TYPE_BOOLEAN
  | .instant => DB_TYPE_INSTANT
  | .long => DB_TYPE_LONG
  | .double => DB_TYPE_DOUBLE
  | .string => DB_TYPE_STRING
  | .keyword => DB_TYPE_KEYWORD
  | .uuid => DB_TYPE_UUID

theorem decode_typeEntid (t : ValueType) : decodeValueType (.ref (typeEntid t)) = some t := by
  cases t <;> decide

def bootIds : CoreIds :=
  ⟨DB_SCHEMA_VERSION, DB_IDENT, DB_SCHEMA_ATTRIBUTE, DB_CARDINALITY, DB_FULLTEXT, DB_INDEX, DB_IS_COMPONENT,
    DB_VALUE_TYPE, DB_UNIQUE, DB_NO_HISTORY, DB_CARDINALITY_MANY, DB_CARDINALITY_ONE, DB_UNIQUE_IDENTITY,
    DB_UNIQUE_VALUE⟩

theorem CoreIntact.coreAttribute {s : Schema} (h : CoreIntact s) {k : Keyword} {e : Entid}
    (hk : bootB (fun b => decide (AMap.get b.identMap k = some e)) = true) (he : e ∈ DB_IDENT :: descList) :
    Mentat.coreAttribute s k = .ok e := by
  unfold Mentat.coreAttribute
  rw [h.ident hk]
  simp only [h.isSome he, if_true]

theorem CoreIntact.coreEntid {s : Schema} (h : CoreIntact s) {k : Keyword} {e : Entid}
    (hk : bootB (fun b => decide (AMap.get b.identMap k = some e)) = true) :
    Mentat.coreEntid s k = .ok e := by
  unfold Mentat.coreEntid
  rw [h.ident hk]

theorem CoreIntact.coreIds {s : Schema} (h : CoreIntact s) : Mentat.coreIds s = .ok bootIds := by
  unfold Mentat.coreIds
  rw [h.coreAttribute (k := kwVersion) (e := DB_SCHEMA_VERSION) (by decide +kernel) (by decide),
    h.coreAttribute (k := kw "db" "ident") (e := DB_IDENT) (by decide +kernel) (by decide),
    h.coreAttribute (k := kwAttribute) (e := DB_SCHEMA_ATTRIBUTE) (by decide +kernel) (by decide),
    h.coreAttribute (k := kw "db" "cardinality") (e := DB_CARDINALITY) (by decide +kernel) (by decide),
    h.coreAttribute (k := kw "db" "fulltext") (e := DB_FULLTEXT) (by decide +kernel) (by decide),
    h.coreAttribute (k := kw "db" "index") (e := DB_INDEX) (by decide +kernel) (by decide),
    h.coreAttribute (k := kw "db" "isComponent") (e := DB_IS_COMPONENT) (by decide +kernel) (by decide),
    h.coreAttribute (k := kw "db" "valueType") (e := DB_VALUE_TYPE) (by decide +kernel) (by decide),
    h.coreAttribute (k := kw "db" "unique") (e := DB_UNIQUE) (by decide +kernel) (by decide),
    h.coreAttribute (k := kw "db" "noHistory") (e := DB_NO_HISTORY) (by decide +kernel) (by decide),
    h.coreEntid (k := kw "db.cardinality" "many") (e := DB_CARDINALITY_MANY) (by decide +kernel),
    h.coreEntid (k := kw "db.cardinality" "one") (e := DB_CARDINALITY_ONE) (by decide +kernel),
    h.coreEntid (k := kw "db.unique" "identity") (e := DB_UNIQUE_IDENTITY) (by decide +kernel),
    h.coreEntid (k := kw "db.unique" "value") (e := DB_UNIQUE_VALUE) (by decide +kernel)]
  rfl

theorem CoreIntact.type {s : Schema} (h : CoreIntact s) (t : ValueType) :
    Mentat.coreEntid s t.keyword' = .ok (typeEntid t) := by
  have key : ∀ t, bootB (fun b => decide (AMap.get b.identMap (ValueType.keyword' t) = some (typeEntid t))) = true := by
    intro t; cases t <;> decide +kernel
  exact h.coreEntid (key t)

/-! ### The terms of a description -/

def cardEntid (many : Bool) : Entid := if many then DB_CARDINALITY_MANY else DB_CARDINALITY_ONE

theorem decode_uniqueEntid (u : Unique) : decodeUnique (.ref (uniqueEntid u)) = some u := by cases u <;> decide

theorem decode_cardEntid (b : Bool) : decodeCardinality (.ref (cardEntid b)) = some b := by cases b <;> decide

/-- The datoms that describe an attribute. -/
def describing (at_ : Attribute) : List (Entid × TypedValue) :=
  [(DB_VALUE_TYPE, .ref (typeEntid at_.valueType)), (DB_CARDINALITY, .ref (cardEntid at_.multival)),
    (DB_INDEX, .boolean at_.index), (DB_FULLTEXT, .boolean at_.fulltext),
    (DB_IS_COMPONENT, .boolean at_.component)] ++
  match at_.unique with
  | some u => [(DB_UNIQUE, .ref (uniqueEntid u))]
  | none => []

/-- One term about an attribute. -/
inductive AboutAttr (old : Option Unique) (k : Keyword) (at_ : Attribute) : TTerm → Prop
  | ident : AboutAttr old k at_ ⟨.add, .inr (tempidOf k), DB_IDENT, .inl (.keyword k)⟩
  | attr : AboutAttr old k at_ ⟨.add, .inr tempidS, DB_SCHEMA_ATTRIBUTE, .inr (tempidOf k)⟩
  | desc {a v} : (a, v) ∈ describing at_ → AboutAttr old k at_ ⟨.add, .inr (tempidOf k), a, .inl v⟩
  | noHistory : AboutAttr old k at_ ⟨.add, .inr (tempidOf k), DB_NO_HISTORY, .inl (.boolean at_.noHistory)⟩
  | retract {u} : at_.unique = none → old = some u →
      AboutAttr old k at_ ⟨.retract, .inr (tempidOf k), DB_UNIQUE, .inl (.ref (uniqueEntid u))⟩

/-- One term of a description. -/
inductive AboutVocab (d : Definition) (attrs : List (Keyword × Attribute)) (old : Keyword → Option Unique) : TTerm → Prop
  | version : AboutVocab d attrs old ⟨.add, .inr tempidS, DB_SCHEMA_VERSION, .inl (.long d.version)⟩
  | name : AboutVocab d attrs old ⟨.add, .inr tempidS, DB_IDENT, .inl (.keyword d.name)⟩
  | about {k at_ x} : (k, at_) ∈ attrs → AboutAttr (old k) k at_ x → AboutVocab d attrs old x

theorem uniqueId_boot (u : Unique) : bootIds.uniqueId u = uniqueEntid u := by cases u <;> rfl

theorem attributeTerms_spec {s : Schema} (h : CoreIntact s) {old k at_ ts}
    (ht : attributeTerms s bootIds old k at_ = .ok ts) (x : TTerm) :
    x ∈ ts ↔ AboutAttr (old.bind (·.unique)) k at_ x := by
  unfold attributeTerms at ht
  rw [h.type] at ht
  obtain rfl := Res.ok.inj ht
  have hcard : (if at_.multival = true then bootIds.many else bootIds.one) = cardEntid at_.multival := by
    unfold cardEntid; rfl
  rw [List.mem_append]
  constructor
  · rintro (hx | hx)
    · simp only [List.mem_cons, List.not_mem_nil, or_false] at hx
      rcases hx with rfl | rfl | rfl | rfl | rfl | rfl | rfl | rfl
      · exact .ident
      · exact .attr
      · exact .desc (a := DB_VALUE_TYPE) (by simp [describing])
      · rw [hcard]; exact .desc (a := DB_CARDINALITY) (by simp [describing])
      · exact .desc (a := DB_INDEX) (by simp [describing])
      · exact .desc (a := DB_FULLTEXT) (by simp [describing])
      · exact .desc (a := DB_IS_COMPONENT) (by simp [describing])
      · exact .noHistory
    · unfold uniqueTerms at hx
      cases hu : at_.unique with
      | some u =>
        simp only [hu, List.mem_singleton] at hx
        subst hx
        rw [uniqueId_boot]
        exact .desc (a := DB_UNIQUE) (by simp [describing, hu])
      | none =>
        simp only [hu] at hx
        cases ho : old.bind (·.unique) with
        | none => simp only [ho] at hx; cases hx
        | some u =>
          simp only [ho, List.mem_singleton] at hx
          subst hx
          rw [uniqueId_boot]
          exact .retract hu rfl
  · intro hx
    cases hx with
    | ident => left; simp [bootIds]
    | attr => left; simp [bootIds]
    | noHistory => left; simp [bootIds]
    | desc hd =>
      unfold describing at hd
      rw [List.mem_append] at hd
      rcases hd with hd | hd
      · left
        simp only [List.mem_cons, List.not_mem_nil, or_false, Prod.mk.injEq] at hd
        rcases hd with ⟨rfl, rfl⟩ | ⟨rfl, rfl⟩ | ⟨rfl, rfl⟩ | ⟨rfl, rfl⟩ | ⟨rfl, rfl⟩
        all_goals (try rw [hcard]); simp [bootIds]
      · right
        cases hu : at_.unique with
        | none => rw [hu] at hd; cases hd
        | some u =>
          rw [hu] at hd
          simp only [List.mem_singleton, Prod.mk.injEq] at hd
          obtain ⟨rfl, rfl⟩ := hd
          simp [uniqueTerms, bootIds, ← uniqueId_boot]
    | retract h1 h2 =>
      right
      simp [uniqueTerms, h1, h2, bootIds, ← uniqueId_boot]

theorem attributesTerms_spec {s : Schema} (h : CoreIntact s) {old} : ∀ {attrs ts},
    attributesTerms s bootIds old attrs = .ok ts → ∀ x, x ∈ ts ↔
      ∃ k at_, (k, at_) ∈ attrs ∧ AboutAttr ((old k).bind (·.unique)) k at_ x := by
  intro attrs
  induction attrs with
  | nil =>
    intro ts ht x
    obtain rfl := Res.ok.inj ht
    simp
  | cons p r ih =>
    intro ts ht x
    obtain ⟨k, at_⟩ := p
    unfold attributesTerms at ht
    rw [Res.bind_ok_iff] at ht
    obtain ⟨ts1, h1, ht⟩ := ht
    rw [Res.bind_ok_iff] at ht
    obtain ⟨ts2, h2, ht⟩ := ht
    obtain rfl := Res.ok.inj ht
    rw [List.mem_append, attributeTerms_spec h h1, ih h2]
    constructor
    · rintro (hx | ⟨k', at', hm, hx⟩)
      · exact ⟨k, at_, by simp, hx⟩
      · exact ⟨k', at', by simp [hm], hx⟩
    · rintro ⟨k', at', hm, hx⟩
      simp only [List.mem_cons, Prod.mk.injEq] at hm
      rcases hm with ⟨rfl, rfl⟩ | hm
      · exact Or.inl hx
      · exact Or.inr ⟨k', at', hm, hx⟩

theorem describe_spec {s : Schema} (h : CoreIntact s) {d attrs old ts} (hd : describe s d attrs old = .ok ts) (x : TTerm) :
    x ∈ ts ↔ AboutVocab d attrs (fun k => (old k).bind (·.unique)) x := by
  unfold describe at hd
  rw [h.coreIds] at hd
  change ((attributesTerms s bootIds old attrs).bind _) = _ at hd
  rw [Res.bind_ok_iff] at hd
  obtain ⟨ts1, h1, hd⟩ := hd
  obtain rfl := Res.ok.inj hd
  rw [List.mem_append, attributesTerms_spec h h1]
  constructor
  · rintro (hx | ⟨k, at_, hm, hx⟩)
    · simp only [List.mem_cons, List.not_mem_nil, or_false] at hx
      rcases hx with rfl | rfl
      · exact .version
      · exact .name
    · exact .about hm hx
  · intro hx
    cases hx with
    | version => left; simp [bootIds]
    | name => left; simp [bootIds]
    | about hm hx => exact Or.inr ⟨_, _, hm, hx⟩

/-! ### The tempids -/

/-- The tempid `t` of a description names the entity with the ident `k`. -/
def NamesIdent (d : Definition) (attrs : List (Keyword × Attribute)) (t : TempId) (k : Keyword) : Prop :=
  (t = tempidS ∧ k = d.name) ∨ ∃ at_, (k, at_) ∈ attrs ∧ t = tempidOf k

/-- The names of the attributes are written differently. -/
def DistinctNames (attrs : List (Keyword × Attribute)) : Prop :=
  (attrs.map fun p => p.1.nname.displayKeyword).Nodup

theorem tempidOf_ne (k : Keyword) : tempidOf k ≠ tempidS := by
  unfold tempidOf tempidS NName.displayKeyword
  intro h
  injection h with h
  injection h with h1 h2
  revert h1; decide

theorem DistinctNames.same {attrs : List (Keyword × Attribute)} (h : DistinctNames attrs) {k k' at_ at'}
    (h1 : (k, at_) ∈ attrs) (h2 : (k', at') ∈ attrs) (he : tempidOf k = tempidOf k') : k = k' ∧ at_ = at' := by
  unfold DistinctNames at h
  injection he with he
  have : (k, at_) = (k', at') := by
    unfold List.Nodup at h
    rw [List.pairwise_map] at h
    rcases pairwise_mem h h1 h2 with h | h | h
    · exact h
    · exact absurd he h
    · exact absurd he.symm h
  exact ⟨congrArg Prod.fst this, congrArg Prod.snd this⟩

theorem DistinctNames.same' {attrs : List (Keyword × Attribute)} (h : DistinctNames attrs) {k at_ at'}
    (h1 : (k, at_) ∈ attrs) (h2 : (k, at') ∈ attrs) : at_ = at' := (h.same h1 h2 rfl).2

theorem NamesIdent.unique {d attrs t k k'} (hn : DistinctNames attrs) (h : NamesIdent d attrs t k) (h' : NamesIdent d attrs t k') :
    k = k' := by
  rcases h with ⟨rfl, rfl⟩ | ⟨at_, hm, rfl⟩
  · rcases h' with ⟨-, rfl⟩ | ⟨at', hm', he⟩
    · rfl
    · exact absurd he.symm (tempidOf_ne _)
  · rcases h' with ⟨he, rfl⟩ | ⟨at', hm', he⟩
    · exact absurd he (tempidOf_ne _)
    · exact (hn.same hm hm' he).1

theorem describing_mem {at_ a v} (h : (a, v) ∈ describing at_) : a ∈ schemaList := by
  unfold describing at h
  simp only [List.mem_append, List.mem_cons, List.not_mem_nil, or_false, Prod.mk.injEq] at h
  rcases h with (⟨rfl, -⟩ | ⟨rfl, -⟩ | ⟨rfl, -⟩ | ⟨rfl, -⟩ | ⟨rfl, -⟩) | h
  all_goals (try decide)
  cases hu : at_.unique with
  | none => rw [hu] at h; cases h
  | some u =>
    rw [hu] at h
    simp only [List.mem_singleton, Prod.mk.injEq] at h
    rw [h.1]; decide

/-- What the terms of a description look like. -/
theorem AboutVocab.shape {d attrs old x} (h : AboutVocab d attrs old x) :
    (∃ t k, x = ⟨.add, .inr t, DB_IDENT, .inl (.keyword k)⟩ ∧ NamesIdent d attrs t k) ∨
    (x.a ∈ descList ∧ x.a ≠ DB_IDENT ∧
      (x = ⟨.add, .inr tempidS, DB_SCHEMA_VERSION, .inl (.long d.version)⟩ ∨
       (∃ k at_, (k, at_) ∈ attrs ∧ x = ⟨.add, .inr tempidS, DB_SCHEMA_ATTRIBUTE, .inr (tempidOf k)⟩) ∨
       ∃ k at_, (k, at_) ∈ attrs ∧ x.e = .inr (tempidOf k) ∧
         ((∃ a v, (a, v) ∈ describing at_ ∧ x = ⟨.add, .inr (tempidOf k), a, .inl v⟩) ∨
          x = ⟨.add, .inr (tempidOf k), DB_NO_HISTORY, .inl (.boolean at_.noHistory)⟩ ∨
          ∃ u, at_.unique = none ∧ old k = some u ∧
            x = ⟨.retract, .inr (tempidOf k), DB_UNIQUE, .inl (.ref (uniqueEntid u))⟩))) := by
  have hsd : ∀ a ∈ schemaList, a ∈ descList ∧ a ≠ DB_IDENT := by decide
  cases h with
  | version => exact Or.inr ⟨show DB_SCHEMA_VERSION ∈ descList by decide, show DB_SCHEMA_VERSION ≠ DB_IDENT by decide, Or.inl rfl⟩
  | name => exact Or.inl ⟨_, _, rfl, Or.inl ⟨rfl, rfl⟩⟩
  | about hm hx =>
    rename_i k at_
    cases hx with
    | ident => exact Or.inl ⟨_, _, rfl, Or.inr ⟨at_, hm, rfl⟩⟩
    | attr => exact Or.inr ⟨show DB_SCHEMA_ATTRIBUTE ∈ descList by decide, show DB_SCHEMA_ATTRIBUTE ≠ DB_IDENT by decide, Or.inr (Or.inl ⟨k, at_, hm, rfl⟩)⟩
    | desc hd =>
      obtain ⟨h1, h2⟩ := hsd _ (describing_mem hd)
      exact Or.inr ⟨h1, h2, Or.inr (Or.inr ⟨k, at_, hm, rfl, Or.inl ⟨_, _, hd, rfl⟩⟩)⟩
    | noHistory =>
      exact Or.inr ⟨show DB_NO_HISTORY ∈ descList by decide, show DB_NO_HISTORY ≠ DB_IDENT by decide,
        Or.inr (Or.inr ⟨k, at_, hm, rfl, Or.inr (Or.inl rfl)⟩)⟩
    | retract h1 h2 =>
      exact Or.inr ⟨show DB_UNIQUE ∈ descList by decide, show DB_UNIQUE ≠ DB_IDENT by decide,
        Or.inr (Or.inr ⟨k, at_, hm, rfl, Or.inr (Or.inr ⟨_, h1, h2, rfl⟩)⟩)⟩

theorem AboutVocab.ident {d attrs old x} (h : AboutVocab d attrs old x) (ha : x.a = DB_IDENT) :
    ∃ t k, x = ⟨.add, .inr t, DB_IDENT, .inl (.keyword k)⟩ ∧ NamesIdent d attrs t k := by
  rcases h.shape with h | ⟨-, h, -⟩
  · exact h
  · exact absurd ha h

theorem AboutVocab.retracts {d attrs old x} (h : AboutVocab d attrs old x) (hop : x.op = .retract) :
    ∃ k at_ u, (k, at_) ∈ attrs ∧ at_.unique = none ∧ old k = some u ∧
      x = ⟨.retract, .inr (tempidOf k), DB_UNIQUE, .inl (.ref (uniqueEntid u))⟩ := by
  rcases h.shape with ⟨t, k, rfl, -⟩ | ⟨-, -, h⟩
  · cases hop
  · rcases h with rfl | ⟨k, at_, -, rfl⟩ | ⟨k, at_, hm', -, h⟩
    · cases hop
    · cases hop
    · rcases h with ⟨a, v, -, rfl⟩ | rfl | ⟨u, h1, h2, rfl⟩
      · cases hop
      · cases hop
      · exact ⟨k, at_, u, hm', h1, h2, rfl⟩

theorem AboutVocab.identity {s : Schema} (hc : CoreIntact s) {d attrs old x} (h : AboutVocab d attrs old x)
    (hi : IsIdentity s x.a) : ∃ t k, x = ⟨.add, .inr t, DB_IDENT, .inl (.keyword k)⟩ ∧ NamesIdent d attrs t k := by
  rcases h.shape with h | ⟨h, -⟩
  · exact h
  · exact absurd hi (hc.notIdentity h)

theorem NamesIdent.term {d attrs old t k} (h : NamesIdent d attrs t k) :
    AboutVocab d attrs old ⟨.add, .inr t, DB_IDENT, .inl (.keyword k)⟩ := by
  rcases h with ⟨rfl, rfl⟩ | ⟨at_, hm, rfl⟩
  · exact .name
  · exact .about hm .ident

/-! ### The transaction -/

/-- A description of `attrs` was transacted. -/
structure DescRun (db : Db) (d : Definition) (attrs : List (Keyword × Attribute)) (old : Keyword → Option Unique)
    (ts : List TTerm) (now : Int) (ids : List TempId) (db' : Db) (rep : Report) : Prop where
  kept : ReachKept db
  core : CoreIntact db.schema
  mem : ∀ x, x ∈ ts ↔ AboutVocab d attrs old x
  names : DistinctNames attrs
  tx : transactTerms db now ts ids = .ok (db', rep)

/-- What the transaction of a description does. -/
structure DescFacts (db : Db) (d : Definition) (attrs : List (Keyword × Attribute)) (old : Keyword → Option Unique)
    (ts : List TTerm) (db' : Db) (rep : Report) (σ : TempIdMap) : Prop where
  named : ∀ t k, NamesIdent d attrs t k → ∃ n, AMap.get σ t = some n ∧ Has db'.store.rows n DB_IDENT (.keyword k) ∧
    (Has db.store.rows n DB_IDENT (.keyword k) ∨ ∀ r ∈ db.store.rows, r.e ≠ n)
  idents : ∀ e v, Has db.store.rows e DB_IDENT v → Has db'.store.rows e DB_IDENT v
  asserted : ∀ x ∈ ts, ∀ y, Denotes σ x y → y.op = .add → y.a ≠ DB_IDENT →
    (∀ x' ∈ ts, ∀ y', Denotes σ x' y' → y'.op = .retract → ¬ (y'.e = y.e ∧ y'.a = y.a)) →
    Has db'.store.rows y.e y.a y.v
  retracted : ∀ x ∈ ts, ∀ y, Denotes σ x y → y.op = .retract → ¬ Has db'.store.rows y.e y.a y.v
  origin : ∀ e a v, a ≠ DB_TX_INSTANT → Has db'.store.rows e a v → Has db.store.rows e a v ∨
    ∃ x ∈ ts, Denotes σ x ⟨.add, e, a, v⟩
  frame : ∀ e a, a ≠ DB_TX_INSTANT → (∀ x ∈ ts, ∀ y, Denotes σ x y → ¬ (y.e = e ∧ y.a = a)) →
    ∀ v, Has db'.store.rows e a v ↔ Has db.store.rows e a v
  many : ∀ e v, Has db.store.rows e DB_SCHEMA_ATTRIBUTE v → Has db'.store.rows e DB_SCHEMA_ATTRIBUTE v

theorem DescRun.facts {db d attrs old ts now ids db' rep} (R : DescRun db d attrs old ts now ids db' rep) :
    ∃ σ, DescFacts db d attrs old ts db' rep σ := by
  obtain ⟨hr, hc, hmem, hnames, h⟩ := R
  obtain ⟨T⟩ := transact_trace h
  obtain ⟨U, sp, hsound, hcomplete⟩ := T.terms_spec
  obtain ⟨hi, hti⟩ := rowsInv_reach hr
  have hist := histInv_reach hr.reach
  obtain ⟨ia, hia, hivt, him, hiu, hix⟩ := hc.identAttr
  have hId : IsIdentity db.schema DB_IDENT := ⟨ia, hia, hiu⟩
  have hattr : ∀ y ∈ T.s3.terms, ∃ at_, db.schema.attr y.a = some at_ := fun y hy =>
    Option.isSome_iff_exists.mp (T.t0Spec.attrs y hy)
  -- new entities have no datoms
  have hfresh : ∀ t n, AMap.get T.s3.tempids t = some n → AMap.get U t = none → ∀ r ∈ db.store.rows, r.e ≠ n := by
    intro t n ht hu r hrr he
    obtain ⟨f1, f2⟩ := sp.fresh t n ht hu
    obtain ⟨l, hl, hle, -⟩ := has_rows_log hist.replay ⟨r, hrr, rfl, rfl, rfl⟩
    have hce := hist.logE l hl
    obtain ⟨u1, u2, u3, u4⟩ := hist.parts.user
    obtain ⟨x1, x2, x3, x4⟩ := hist.parts.tx
    obtain ⟨b1, b2, b3, b4⟩ := hist.parts.db
    obtain ⟨v1, v2, v3, v4⟩ := sp.user (by omega)
    rw [hle, he] at hce
    simp only [Parts.containsEntid, Partition.containsEntid, Bool.or_eq_true, decide_eq_true_eq] at hce
    have : USER0 = 65536 := rfl
    have : TX0 = 268435456 := rfl
    omega
  -- which tempids denote existing entities
  have hU : ∀ t k n, NamesIdent d attrs t k → AMap.get U t = some n → Has db.store.rows n DB_IDENT (.keyword k) := by
    intro t k n hn hu
    cases sp.why t n hu with
    | direct hx hid hh =>
      obtain ⟨t', k', hx', hn'⟩ := ((hmem _).1 hx).identity hc hid
      simp only [Term.mk.injEq, Sum.inr.injEq, Sum.inl.injEq, true_and] at hx'
      obtain ⟨rfl, rfl, rfl⟩ := hx'
      rw [hn.unique hnames hn']
      exact hh
    | via hx hid _ _ =>
      obtain ⟨t', k', hx', hn'⟩ := ((hmem _).1 hx).identity hc hid
      simp only [Term.mk.injEq, reduceCtorEq, and_false] at hx'
  have hdich : ∀ t k n, NamesIdent d attrs t k → AMap.get T.s3.tempids t = some n →
      Has db.store.rows n DB_IDENT (.keyword k) ∨ (AMap.get U t = none ∧ ∀ r ∈ db.store.rows, r.e ≠ n) := by
    intro t k n hn ht
    cases hu : AMap.get U t with
    | none => exact Or.inr ⟨rfl, hfresh t n ht hu⟩
    | some m =>
      left
      have := sp.sub _ _ hu
      rw [ht] at this
      obtain rfl := Option.some.inj this
      exact hU t k n hn hu
  have hidents : ∀ e v, Has db.store.rows e DB_IDENT v → Has db'.store.rows e DB_IDENT v := by
    intro e v hv
    refine (T.unchanged (e := e) (a := DB_IDENT) ?_ v).2 hv
    intro q hq he ha
    have key : ∀ op, (⟨op, q.e, q.a, q.v⟩ : RTerm) ∈ T.s3.terms → op = .add ∧ Has db.store.rows e DB_IDENT q.v := by
      intro op hm
      obtain ⟨x, hx, hd⟩ := hsound _ hm
      obtain ⟨d1, d2, d3, d4⟩ := hd
      obtain ⟨t, k, rfl, hn⟩ := ((hmem _).1 hx).ident (by rw [← d2]; exact ha)
      refine ⟨d1, ?_⟩
      have d4 : q.v = .keyword k := d4
      rw [d4, ← he]
      rcases hdich t k q.e hn d3 with h | ⟨-, h⟩
      · exact h
      · obtain ⟨r, hr, hre, -⟩ := hv
        exact absurd (hre.trans he.symm) (h r hr)
    rcases (T.mem_queue.mp hq).2 with ⟨hadd, hm | ⟨h1, -⟩⟩ | ⟨-, hm⟩
    · exact ⟨hadd, (key _ hm).2⟩
    · exact absurd (ha.symm.trans h1) (by decide)
    · exact absurd (key _ hm).1 (by decide)
  have hasserted : ∀ x ∈ ts, ∀ y, Denotes T.s3.tempids x y → y.op = .add → ¬ Dropped db.schema db.store U x →
      (∀ x' ∈ ts, ∀ y', Denotes T.s3.tempids x' y' → y'.op = .retract → ¬ (y'.e = y.e ∧ y'.a = y.a)) →
      Has db'.store.rows y.e y.a y.v := by
    intro x hx y hd hop hnd hnr
    rcases hcomplete x hx with ⟨y', hy', hd'⟩ | hdr
    · have := hd.unique hd'
      subst this
      obtain ⟨at_, hat⟩ := hattr y hy'
      obtain ⟨op, e, a, v⟩ := y
      simp only at hop hat hnr
      subst hop
      refine T.added_present (q := ⟨e, a, at_, v, true⟩)
        (T.mem_queue.mpr ⟨hat, Or.inl ⟨rfl, Or.inl hy'⟩⟩) rfl ?_
      intro hm q' hq' ha' ⟨he', hae'⟩
      rcases (T.mem_queue.mp hq').2 with ⟨hadd, -⟩ | ⟨-, hmm⟩
      · rw [ha'] at hadd; simp at hadd
      · obtain ⟨x', hx', hd''⟩ := hsound _ hmm
        exact hnr x' hx' _ hd'' rfl ⟨he', hae'⟩
    · exact absurd hdr hnd
  refine ⟨T.s3.tempids, ?_, hidents, ?_, ?_, ?_, ?_, ?_⟩
  · intro t k hn
    have hx := (hmem _).2 (hn.term (old := old))
    obtain ⟨n, hn'⟩ : ∃ n, AMap.get T.s3.tempids t = some n := by
      rcases hcomplete _ hx with ⟨y', -, hd⟩ | ⟨-, -, t', n, v, he, ht, -⟩
      · exact ⟨y'.e, hd.2.2.1⟩
      · injection he with he
        subst he
        exact ⟨n, sp.sub _ _ ht⟩
    refine ⟨n, hn', ?_, ?_⟩
    · rcases hdich t k n hn hn' with h | ⟨hu, h⟩
      · exact hidents _ _ h
      · refine hasserted _ hx ⟨.add, n, DB_IDENT, .keyword k⟩ ⟨rfl, rfl, hn', rfl⟩ rfl ?_ ?_
        · rintro ⟨-, -, t', n', v, he, ht, -⟩
          injection he with he
          subst he
          rw [hu] at ht; cases ht
        · rintro x' hx' y' hd' hop ⟨-, ha⟩
          obtain ⟨t', k', rfl, -⟩ := ((hmem _).1 hx').ident (by rw [← hd'.2.1]; exact ha)
          rw [hd'.1] at hop
          cases hop
    · rcases hdich t k n hn hn' with h | ⟨hu, h⟩
      · exact Or.inl h
      · exact Or.inr h
  · intro x hx y hd hop hne hnr
    refine hasserted x hx y hd hop ?_ hnr
    rintro ⟨-, hid, -⟩
    obtain ⟨t, k, rfl, -⟩ := ((hmem _).1 hx).identity hc hid
    exact hne hd.2.1
  · intro x hx y hd hop
    rcases hcomplete x hx with ⟨y', hy', hd'⟩ | ⟨ho, -⟩
    · have := hd.unique hd'
      subst this
      obtain ⟨at_, hat⟩ := hattr y hy'
      obtain ⟨op, e, a, v⟩ := y
      simp only at hop hat
      subst hop
      exact T.retracted_absent (q := ⟨e, a, at_, v, false⟩)
        (T.mem_queue.mpr ⟨hat, Or.inr ⟨rfl, hy'⟩⟩) rfl
    · rw [hd.1, ho] at hop; simp at hop
  · intro e a v hne hh
    rw [T.has_iff] at hh
    obtain ⟨r, hr, rfl, rfl, rfl⟩ := hh
    rcases (T.mem_store r).mp hr with ⟨h1, -⟩ | ⟨q, hq, hi, rfl⟩
    · exact Or.inl ⟨r, h1, rfl, rfl, rfl⟩
    · right
      rcases (T.mem_queue.mp hq).2 with ⟨hadd, hm | ⟨h1, -⟩⟩ | ⟨hadd, -⟩
      · exact hsound _ hm
      · exact absurd h1 hne
      · rw [hi.1] at hadd; cases hadd
  · intro e a hne hall v
    refine T.unchanged (e := e) (a := a) ?_ v
    intro q hq he ha
    exfalso
    rcases (T.mem_queue.mp hq).2 with ⟨hadd, hm | ⟨h1, h2, -⟩⟩ | ⟨hadd, hm⟩
    · obtain ⟨x, hx, hd⟩ := hsound _ hm
      exact hall x hx _ hd ⟨he, ha⟩
    · exact hne (ha.symm.trans h1)
    · obtain ⟨x, hx, hd⟩ := hsound _ hm
      exact hall x hx _ hd ⟨he, ha⟩
  · rintro e v ⟨r, hr, rfl, ha, rfl⟩
    rw [T.has_iff]
    refine ⟨r, (T.mem_store r).mpr (Or.inl ⟨hr, ?_⟩), rfl, ha, rfl⟩
    rintro ⟨q, hq, hj, hd⟩
    have hqa : q.a = DB_SCHEMA_ATTRIBUTE := hj.2.1.symm.trans ha
    obtain ⟨at_, hat, hm⟩ := hc.attr (e := DB_SCHEMA_ATTRIBUTE) (p := fun at_ => at_.multival) (by decide +kernel)
    have hqat := (T.mem_queue.mp hq).1
    rw [hqa, hat] at hqat
    obtain rfl := Option.some.inj hqat
    rcases hd with hd | ⟨hd, -⟩
    · rcases (T.mem_queue.mp hq).2 with ⟨hadd, -⟩ | ⟨-, hmm⟩
      · rw [hd] at hadd; cases hadd
      · obtain ⟨x, hx, hdx⟩ := hsound _ hmm
        obtain ⟨k, at_, u, -, -, -, rfl⟩ := ((hmem x).1 hx).retracts hdx.1.symm
        have := hdx.2.1
        rw [hqa] at this
        exact absurd (show DB_SCHEMA_ATTRIBUTE = DB_UNIQUE from this) (by decide)
    · rw [hm] at hd; cases hd

/-! ### The attributes afterwards -/

theorem AttrsInv.attr_of {s : Schema} {rows : List Row} {tab : List EAV} (h : AttrsInv s rows tab) {e a v}
    (ha : a ∈ schemaList) (hh : Has rows e a v) : ∃ at_, s.attr e = some at_ := by
  obtain ⟨v', hv'⟩ := h.typed e a v ha hh
  obtain ⟨at_, hb⟩ := built_exists (D := Has rows e) (fun a v ha hv => h.decodable e a v ha hv)
    (fun a v v' ha h1 h2 => h.one e a v v' ha h1 h2) ⟨v', hv'⟩
  exact ⟨at_, (h.attrs e at_).2 hb⟩

theorem describing_unique {at_ v} (h : (DB_UNIQUE, v) ∈ describing at_) :
    ∃ u, at_.unique = some u ∧ v = .ref (uniqueEntid u) := by
  unfold describing at h
  rw [List.mem_append] at h
  rcases h with h | h
  · simp only [List.mem_cons, List.not_mem_nil, or_false, Prod.mk.injEq] at h
    rcases h with ⟨h, -⟩ | ⟨h, -⟩ | ⟨h, -⟩ | ⟨h, -⟩ | ⟨h, -⟩ <;> exact absurd h (by decide)
  · cases hu : at_.unique with
    | none => rw [hu] at h; cases h
    | some u =>
      rw [hu] at h
      simp only [List.mem_singleton, Prod.mk.injEq, true_and] at h
      exact ⟨u, rfl, h⟩

/-- What makes a description harmless for the attribute `o` it alters: see `C43_fails_*`. -/
structure AltersWell (rows : List Row) (old : Option Unique) (e : Entid) (o at_ : Attribute) : Prop where
  /-- uniqueness to be taken away is known from the vocabulary being upgraded -/
  drops : at_.unique = none → o.unique ≠ none → old = o.unique
  /-- an attribute that stays unique is not altered at all -/
  keeps : at_.unique ≠ none → o.unique = at_.unique → ∀ a v, (a, v) ∈ describing at_ → Has rows e a v

/-- The description suits the store. -/
def Suits (db : Db) (attrs : List (Keyword × Attribute)) (old : Keyword → Option Unique) : Prop :=
  ∀ k at_, (k, at_) ∈ attrs → at_.noHistory = false ∧
    ∀ e o, Has db.store.rows e DB_IDENT (.keyword k) → db.schema.attr e = some o →
      AltersWell db.store.rows (old k) e o at_

structure DescAfter (db : Db) (d : Definition) (attrs : List (Keyword × Attribute)) (db' : Db) : Prop where
  inv : AttrsInv db'.schema db'.store.rows db'.views.schema
  idents : IdentsMatch db'.schema db'.store.rows
  moves : NoIdentMoves db.store.rows db'.store.rows
  clean : CleanRemoval db.store.rows db'.store.rows
  unique : KeepsUnique db.store.rows db'.store.rows
  keeps : KeepsUsedAttributes db db'
  persist : ∀ k e, AMap.get db.schema.identMap k = some e → AMap.get db'.schema.identMap k = some e
  still : ∀ e, (db.schema.attr e).isSome = true → (db'.schema.attr e).isSome = true
  vocab : ∃ n, AMap.get db'.schema.identMap d.name = some n ∧
    (∀ v, Has db'.store.rows n DB_SCHEMA_VERSION v ↔ v = .long d.version) ∧
    ∀ k at_, (k, at_) ∈ attrs → ∃ e, AMap.get db'.schema.identMap k = some e ∧ db'.schema.attr e = some at_ ∧
      Has db'.store.rows n DB_SCHEMA_ATTRIBUTE (.ref e) ∧
      ∀ a v, a ∈ schemaList → (Has db'.store.rows e a v ↔ (a, v) ∈ describing at_)
  others : ∀ e, (∀ k at_, (k, at_) ∈ attrs → ¬ Has db'.store.rows e DB_IDENT (.keyword k)) →
    db'.schema.attr e = db.schema.attr e ∧
      ∀ a v, a ∈ schemaList → (Has db'.store.rows e a v ↔ Has db.store.rows e a v)
  refs : ∀ e v, Has db.store.rows e DB_SCHEMA_ATTRIBUTE v → Has db'.store.rows e DB_SCHEMA_ATTRIBUTE v
  refs' : ∀ e v, Has db'.store.rows e DB_SCHEMA_ATTRIBUTE v → ¬ Has db.store.rows e DB_SCHEMA_ATTRIBUTE v →
    Has db'.store.rows e DB_IDENT (.keyword d.name)
  versions : ∀ e, ¬ Has db'.store.rows e DB_IDENT (.keyword d.name) → ∀ v,
    (Has db'.store.rows e DB_SCHEMA_VERSION v ↔ Has db.store.rows e DB_SCHEMA_VERSION v)

theorem describing_spec {rows : List Row} {e : Entid} {at_ : Attribute}
    (hf : ∀ a v v', a ∈ schemaList → Has rows e a v → Has rows e a v' → v = v')
    (h : ∀ a v, (a, v) ∈ describing at_ → Has rows e a v)
    (hu : at_.unique = none → ∀ v, ¬ Has rows e DB_UNIQUE v) (a : Entid) (v : TypedValue) (ha : a ∈ schemaList) :
    Has rows e a v ↔ (a, v) ∈ describing at_ := by
  refine ⟨fun hh => ?_, h a v⟩
  have key : ∀ w, (a, w) ∈ describing at_ → (a, v) ∈ describing at_ := by
    intro w hw
    rw [hf a v w ha hh (h a w hw)]; exact hw
  simp only [schemaList, List.mem_cons, List.not_mem_nil, or_false] at ha
  rcases ha with rfl | rfl | rfl | rfl | rfl | rfl
  · exact key (.ref (cardEntid at_.multival)) (by simp [describing])
  · exact key (.boolean at_.fulltext) (by simp [describing])
  · exact key (.boolean at_.index) (by simp [describing])
  · exact key (.boolean at_.component) (by simp [describing])
  · cases hq : at_.unique with
    | none => exact absurd hh (hu hq v)
    | some u => exact key (.ref (uniqueEntid u)) (by simp [describing, hq])
  · exact key (.ref (typeEntid at_.valueType)) (by simp [describing])

theorem describing_built {D : Entid → TypedValue → Prop} {at_ : Attribute} (hn : at_.noHistory = false)
    (h : ∀ a v, a ∈ schemaList → (D a v ↔ (a, v) ∈ describing at_)) : Built D at_ := by
  have field : ∀ a w, a ∈ schemaList → a ≠ DB_UNIQUE → (a, w) ∈ describing at_ → D a w ∧ ∀ v, D a v → v = w := by
    intro a w ha hne hw
    refine ⟨(h a w ha).2 hw, fun v hv => ?_⟩
    have hv := (h a v ha).1 hv
    unfold describing at hv hw
    rw [List.mem_append] at hv hw
    have nou : ∀ v, (a, v) ∉ (match at_.unique with
        | some u => [(DB_UNIQUE, TypedValue.ref (uniqueEntid u))]
        | none => []) := by
      intro v hv
      cases hu : at_.unique with
      | none => rw [hu] at hv; cases hv
      | some u =>
        rw [hu] at hv
        simp only [List.mem_singleton, Prod.mk.injEq] at hv
        exact hne hv.1
    have hv := hv.resolve_right (nou v)
    have hw := hw.resolve_right (nou w)
    simp only [List.mem_cons, List.not_mem_nil, or_false, Prod.mk.injEq] at hv hw
    rcases hw with ⟨rfl, rfl⟩ | ⟨rfl, rfl⟩ | ⟨rfl, rfl⟩ | ⟨rfl, rfl⟩ | ⟨rfl, rfl⟩ <;>
      (rcases hv with ⟨h1, h2⟩ | ⟨h1, h2⟩ | ⟨h1, h2⟩ | ⟨h1, h2⟩ | ⟨h1, h2⟩ <;>
        first | exact h2 | exact absurd h1 (by decide))
  have f1 := field DB_VALUE_TYPE (.ref (typeEntid at_.valueType)) (by decide) (by decide) (by simp [describing])
  have f2 := field DB_CARDINALITY (.ref (cardEntid at_.multival)) (by decide) (by decide) (by simp [describing])
  have f3 := field DB_INDEX (.boolean at_.index) (by decide) (by decide) (by simp [describing])
  have f4 := field DB_FULLTEXT (.boolean at_.fulltext) (by decide) (by decide) (by simp [describing])
  have f5 := field DB_IS_COMPONENT (.boolean at_.component) (by decide) (by decide) (by simp [describing])
  refine ⟨⟨_, f1.1, decode_typeEntid _⟩, ?_, ?_, ?_, ?_, ?_, ?_, ?_, ?_, ?_, ?_, hn⟩
  · intro v hv; rw [f2.2 v hv]; exact decode_cardEntid _
  · intro hx; exact absurd f2.1 (hx _)
  · intro v hv
    obtain ⟨u, hu, rfl⟩ := describing_unique ((h DB_UNIQUE v (by decide)).1 hv)
    rw [hu]; exact ⟨decode_uniqueEntid u, rfl⟩
  · intro hx
    cases hu : at_.unique with
    | none => rfl
    | some u =>
      exact absurd ((h DB_UNIQUE (.ref (uniqueEntid u)) (by decide)).2 (by simp [describing, hu])) (hx _)
  · intro v hv; rw [f3.2 v hv]; rfl
  · intro hx; exact absurd f3.1 (hx _)
  · intro v hv; rw [f4.2 v hv]; rfl
  · intro hx; exact absurd f4.1 (hx _)
  · intro v hv; rw [f5.2 v hv]; rfl
  · intro hx; exact absurd f5.1 (hx _)

theorem DescRun.after {db d attrs old ts now ids db' rep} (R : DescRun db d attrs old ts now ids db' rep)
    (hinv : AttrsInv db.schema db.store.rows db.views.schema) (him : IdentsMatch db.schema db.store.rows)
    (hs : Suits db attrs old) : DescAfter db d attrs db' := by
  obtain ⟨σ, F⟩ := R.facts
  obtain ⟨hr, hc, hmem, hnames, h⟩ := R
  obtain ⟨hi, hti⟩ := rowsInv_reach hr
  have hso := hc.schemaOne
  have hir' := identRows_step hi hti hc.identAttr' h
  have hir := hi.identRows hc.identAttr'
  have hi' : ∀ e a v v', (∃ at_, db.schema.attr a = some at_ ∧ at_.multival = false) →
      Has db'.store.rows e a v → Has db'.store.rows e a v' → v = v' := by
    rintro e a v v' ⟨at_, hat, hm⟩ h1 h2
    obtain ⟨T⟩ := transact_trace h
    have hri := rowsInv_apply hi (T.qok hti) T.applied
    rw [T.has_iff] at h1 h2
    obtain ⟨r, hr, re, ra, rfl⟩ := h1
    obtain ⟨r', hr', re', ra', rfl⟩ := h2
    rw [hri.one r hr r' hr' at_ (by rw [ra]; exact hat) hm (re.trans re'.symm) (ra.trans ra'.symm)]
  have hone' : ∀ e a v v', a ∈ schemaList → Has db'.store.rows e a v → Has db'.store.rows e a v' → v = v' :=
    fun e a v v' ha => hi' e a v v' (hso a ha)
  -- the entity of an attribute of the description
  have hent : ∀ k at_, (k, at_) ∈ attrs → ∃ n, AMap.get σ (tempidOf k) = some n ∧
      Has db'.store.rows n DB_IDENT (.keyword k) ∧
      (Has db.store.rows n DB_IDENT (.keyword k) ∨ ∀ r ∈ db.store.rows, r.e ≠ n) :=
    fun k at_ hm => F.named _ k (Or.inr ⟨at_, hm, rfl⟩)
  have hsameK : ∀ k k' at_ at' n, (k, at_) ∈ attrs → (k', at') ∈ attrs → AMap.get σ (tempidOf k) = some n →
      AMap.get σ (tempidOf k') = some n → k = k' ∧ at_ = at' := by
    intro k k' at_ at' n hm hm' hk hk'
    obtain ⟨n1, h1, h2, -⟩ := hent k at_ hm
    obtain ⟨n2, h3, h4, -⟩ := hent k' at' hm'
    rw [hk] at h1; obtain rfl := Option.some.inj h1
    rw [hk'] at h3; obtain rfl := Option.some.inj h3
    have := hir'.one _ _ _ h2 h4
    injection this with this
    subst this
    exact ⟨rfl, hnames.same' hm hm'⟩
  have hdesc : ∀ k at_ n, (k, at_) ∈ attrs → AMap.get σ (tempidOf k) = some n → ∀ a v, (a, v) ∈ describing at_ →
      Has db'.store.rows n a v := by
    intro k at_ n hm hk a v hd
    refine F.asserted _ ((hmem _).2 (.about hm (.desc hd))) ⟨.add, n, a, v⟩ ⟨rfl, rfl, hk, rfl⟩ rfl ?_ ?_
    · have := describing_mem hd
      intro hx
      rw [show a = DB_IDENT from hx] at this
      revert this; decide
    · rintro x' hx' y' hd' hop ⟨he, ha⟩
      obtain ⟨k', at', u, hm', hu, -, rfl⟩ := ((hmem x').1 hx').retracts (hd'.1.symm.trans hop)
      have hk' : AMap.get σ (tempidOf k') = some n := by rw [← show y'.e = n from he]; exact hd'.2.2.1
      obtain ⟨-, rfl⟩ := hsameK k k' at_ at' n hm hm' hk hk'
      have haU : a = DB_UNIQUE := by rw [← show y'.a = a from ha]; exact hd'.2.1
      rw [haU] at hd
      obtain ⟨u', hu', -⟩ := describing_unique hd
      rw [hu] at hu'; cases hu'
  have hnou : ∀ k at_ n, (k, at_) ∈ attrs → AMap.get σ (tempidOf k) = some n → at_.unique = none →
      ∀ v, ¬ Has db'.store.rows n DB_UNIQUE v := by
    intro k at_ n hm hk hu v hv
    rcases F.origin n DB_UNIQUE v (by decide) hv with h0 | ⟨x, hx, hd⟩
    · obtain ⟨n', h1, h2, h3⟩ := hent k at_ hm
      rw [hk] at h1; obtain rfl := Option.some.inj h1
      rcases h3 with h3 | h3
      · obtain ⟨o, ho⟩ := hinv.attr_of (by decide) h0
        have hb := (hinv.attrs n o).1 ho
        obtain ⟨hdu, hsome⟩ := hb.unique v h0
        obtain ⟨u, hou⟩ := Option.isSome_iff_exists.1 hsome
        have hold := ((hs k at_ hm).2 n o h3 ho).drops hu (by rw [hou]; simp)
        rw [hou] at hold hdu
        have hv' := decodeUnique_some hdu
        have := F.retracted _ ((hmem _).2 (.about hm (.retract hu hold)))
          ⟨.retract, n, DB_UNIQUE, .ref (uniqueEntid u)⟩ ⟨rfl, rfl, hk, rfl⟩ rfl
        exact this (hv' ▸ hv)
      · obtain ⟨r, hr, hre, -⟩ := h0
        exact h3 r hr hre
    · rcases ((hmem x).1 hx).shape with ⟨t, k', rfl, -⟩ | ⟨-, -, h⟩
      · exact absurd (show DB_UNIQUE = DB_IDENT from hd.2.1) (by decide)
      · rcases h with rfl | ⟨k', at', -, rfl⟩ | ⟨k', at', hm', -, h⟩
        · exact absurd (show DB_UNIQUE = DB_SCHEMA_VERSION from hd.2.1) (by decide)
        · exact absurd (show DB_UNIQUE = DB_SCHEMA_ATTRIBUTE from hd.2.1) (by decide)
        · rcases h with ⟨a, w, hda, rfl⟩ | rfl | ⟨u, -, -, rfl⟩
          · have ha : DB_UNIQUE = a := hd.2.1
            subst ha
            obtain ⟨-, rfl⟩ := hsameK k k' at_ at' n hm hm' hk hd.2.2.1
            obtain ⟨u', hu', -⟩ := describing_unique hda
            rw [hu] at hu'; cases hu'
          · exact absurd (show DB_UNIQUE = DB_NO_HISTORY from hd.2.1) (by decide)
          · cases hd.1
  have hexact : ∀ k at_ n, (k, at_) ∈ attrs → AMap.get σ (tempidOf k) = some n → ∀ a v, a ∈ schemaList →
      (Has db'.store.rows n a v ↔ (a, v) ∈ describing at_) := by
    intro k at_ n hm hk a v ha
    exact describing_spec (fun a v v' => hone' n a v v') (hdesc k at_ n hm hk) (hnou k at_ n hm hk) a v ha
  -- entities the description is not about
  have hother : ∀ e, (∀ k at_, (k, at_) ∈ attrs → AMap.get σ (tempidOf k) ≠ some e) → ∀ a v, a ∈ schemaList →
      (Has db'.store.rows e a v ↔ Has db.store.rows e a v) := by
    intro e hne a v ha
    refine F.frame e a (by rintro rfl; revert ha; decide) ?_ v
    rintro x hx y hd ⟨he, hay⟩
    have hsl : ∀ b ∈ [DB_IDENT, DB_SCHEMA_VERSION, DB_SCHEMA_ATTRIBUTE], b ∉ schemaList := by decide
    rcases ((hmem x).1 hx).shape with ⟨t, k', rfl, -⟩ | ⟨-, -, h⟩
    · rw [← hay, hd.2.1] at ha; exact hsl DB_IDENT (by simp) ha
    · rcases h with rfl | ⟨k', at', -, rfl⟩ | ⟨k', at', hm', hxe, -⟩
      · rw [← hay, hd.2.1] at ha; exact hsl DB_SCHEMA_VERSION (by simp) ha
      · rw [← hay, hd.2.1] at ha; exact hsl DB_SCHEMA_ATTRIBUTE (by simp) ha
      · have := hd.2.2.1
        rw [hxe, he] at this
        exact hne k' at' hm' this
  have htouch : ∀ e, (∃ k at_, (k, at_) ∈ attrs ∧ AMap.get σ (tempidOf k) = some e) ∨
      ∀ k at_, (k, at_) ∈ attrs → AMap.get σ (tempidOf k) ≠ some e := by
    intro e
    by_cases hx : ∃ k at_, (k, at_) ∈ attrs ∧ AMap.get σ (tempidOf k) = some e
    · exact Or.inl hx
    · exact Or.inr fun k at_ hm hk => hx ⟨k, at_, hm, hk⟩
  have hmoves : NoIdentMoves db.store.rows db'.store.rows := by
    intro k e e' h1 h2
    exact hir'.unique _ _ _ (F.idents _ _ h1) h2
  obtain ⟨s1, -, -, -⟩ := attrs_step hi hti hso h
  -- the type of an attribute stays
  have hvt : ∀ e v, Has db.store.rows e DB_VALUE_TYPE v → Has db'.store.rows e DB_VALUE_TYPE v := by
    intro e v hv
    rcases htouch e with ⟨k, at_, hm, hk⟩ | hne
    · have hd := hdesc k at_ e hm hk DB_VALUE_TYPE (.ref (typeEntid at_.valueType)) (by simp [describing])
      by_cases hg : Has db.store.rows e DB_VALUE_TYPE (.ref (typeEntid at_.valueType))
      · rw [hinv.one e _ v _ (by decide) hv hg]; exact hd
      · exfalso
        obtain ⟨o, ho⟩ := hinv.attr_of (by decide) hv
        have hst := s1 e
        have hgain : Gains db.store.rows db'.store.rows e DB_VALUE_TYPE (.ref (typeEntid at_.valueType)) :=
          ⟨by decide, hd, hg⟩
        rw [ho] at hst
        generalize hz : db'.schema.attr e = z at hst
        cases hst with
        | same _ h1 h2 => exact h1 _ _ hgain
        | gone _ h1 h2 h3 => exact h3 _ _ hgain
        | altered h1 h2 => exact h2.noValueType _ hgain
    · exact (hother e hne _ _ (by decide)).2 hv
  have hclean : CleanRemoval db.store.rows db'.store.rows := by
    intro e v hv hno
    exact absurd (hvt e v hv) (hno v)
  have hkeep : KeepsUnique db.store.rows db'.store.rows := by
    intro e v h0 h1
    left
    intro a ha v'
    rcases htouch e with ⟨k, at_, hm, hk⟩ | hne
    · obtain ⟨n', h2, h3, h4⟩ := hent k at_ hm
      rw [hk] at h2; obtain rfl := Option.some.inj h2
      have h4 : Has db.store.rows e DB_IDENT (.keyword k) := by
        rcases h4 with h4 | h4
        · exact h4
        · obtain ⟨r, hr, hre, -⟩ := h0
          exact absurd hre (h4 r hr)
      obtain ⟨o, ho⟩ := hinv.attr_of (by decide) h0
      obtain ⟨hdu, hsome⟩ := ((hinv.attrs e o).1 ho).unique v h0
      obtain ⟨u, hu, rfl⟩ := describing_unique ((hexact k at_ e hm hk _ _ (by decide)).1 h1)
      rw [decode_uniqueEntid] at hdu
      have hall := ((hs k at_ hm).2 e o h4 ho).keeps (by rw [hu]; simp) (by rw [hu, ← hdu])
      rw [hexact k at_ e hm hk a v' ha]
      refine ⟨fun hh => ?_, hall a v'⟩
      exact (describing_spec (fun a v v' => hinv.one e a v v') hall (fun hq => by rw [hu] at hq; cases hq) a v' ha).1 hh
    · exact (hother e hne a v' ha).symm
  have hinv' : AttrsInv db'.schema db'.store.rows db'.views.schema :=
    attrsInv_step hi hti hso hinv hclean hkeep h
  have him' : IdentsMatch db'.schema db'.store.rows := (idents_step hi hti hc.identAttr' h).2.1 him hmoves
  have hotherA : ∀ e, (∀ k at_, (k, at_) ∈ attrs → AMap.get σ (tempidOf k) ≠ some e) →
      db'.schema.attr e = db.schema.attr e := by
    intro e hne
    apply Option.ext
    intro at_
    rw [hinv'.attrs, hinv.attrs]
    exact ⟨Built.congr fun a v ha => hother e hne a v ha, Built.congr fun a v ha => (hother e hne a v ha).symm⟩
  have hnewA : ∀ k at_ n, (k, at_) ∈ attrs → AMap.get σ (tempidOf k) = some n → db'.schema.attr n = some at_ := by
    intro k at_ n hm hk
    exact (hinv'.attrs n at_).2 (describing_built (hs k at_ hm).1 (hexact k at_ n hm hk))
  have honly : ∀ x ∈ ts, ∀ y, Denotes σ x y → y.a = DB_SCHEMA_VERSION ∨ y.a = DB_SCHEMA_ATTRIBUTE →
      Has db'.store.rows y.e DB_IDENT (.keyword d.name) := by
    intro x hx y hd ha
    have hS : x.e = .inr tempidS → Has db'.store.rows y.e DB_IDENT (.keyword d.name) := by
      intro hxe
      obtain ⟨n, hn, hid, -⟩ := F.named tempidS d.name (Or.inl ⟨rfl, rfl⟩)
      have := hd.2.2.1
      rw [hxe] at this
      rw [show y.e = n from Option.some.inj ((show AMap.get σ tempidS = some y.e from this).symm.trans hn)]
      exact hid
    rw [hd.2.1] at ha
    have no : ∀ {a : Entid}, a ∈ schemaList ∨ a = DB_IDENT ∨ a = DB_NO_HISTORY → x.a = a →
        Has db'.store.rows y.e DB_IDENT (.keyword d.name) := by
      intro a h1 h2
      have key : ∀ a, a ∈ schemaList ∨ a = DB_IDENT ∨ a = DB_NO_HISTORY → a ≠ DB_SCHEMA_VERSION ∧ a ≠ DB_SCHEMA_ATTRIBUTE := by
        have k1 : ∀ a ∈ schemaList, a ≠ DB_SCHEMA_VERSION ∧ a ≠ DB_SCHEMA_ATTRIBUTE := by decide
        rintro a (h | rfl | rfl)
        · exact k1 a h
        · decide
        · decide
      rw [h2] at ha
      rcases ha with ha | ha
      · exact absurd ha (key a h1).1
      · exact absurd ha (key a h1).2
    rcases ((hmem x).1 hx).shape with ⟨t, k', rfl, -⟩ | ⟨-, -, h⟩
    · exact no (Or.inr (Or.inl rfl)) rfl
    · rcases h with rfl | ⟨k', at', -, rfl⟩ | ⟨k', at', hm', -, h⟩
      · exact hS rfl
      · exact hS rfl
      · rcases h with ⟨a, v, hda, rfl⟩ | rfl | ⟨u, -, -, rfl⟩
        · exact no (Or.inl (describing_mem hda)) rfl
        · exact no (Or.inr (Or.inr rfl)) rfl
        · exact no (Or.inl (show DB_UNIQUE ∈ schemaList by decide)) rfl
  refine ⟨hinv', him', hmoves, hclean, hkeep, ?_, ?_, ?_, ?_, ?_, F.many, ?_, ?_⟩
  · intro a v hv hno
    exact absurd (hvt a v hv) hno
  · intro k e hk
    exact (him' k e).2 (F.idents _ _ ((him k e).1 hk))
  · intro e he
    rcases htouch e with ⟨k, at_, hm, hk⟩ | hne
    · rw [hnewA k at_ e hm hk]; rfl
    · rw [hotherA e hne]; exact he
  · obtain ⟨n, hn, hid, -⟩ := F.named tempidS d.name (Or.inl ⟨rfl, rfl⟩)
    have hver : Has db'.store.rows n DB_SCHEMA_VERSION (.long d.version) := by
      refine F.asserted _ ((hmem _).2 .version) ⟨.add, n, DB_SCHEMA_VERSION, .long d.version⟩ ⟨rfl, rfl, hn, rfl⟩ rfl
        (show DB_SCHEMA_VERSION ≠ DB_IDENT by decide) ?_
      rintro x' hx' y' hd' hop ⟨-, ha⟩
      obtain ⟨k', at', u, -, -, -, rfl⟩ := ((hmem x').1 hx').retracts (hd'.1.symm.trans hop)
      exact absurd (show DB_SCHEMA_VERSION = DB_UNIQUE from ha.symm.trans hd'.2.1) (by decide)
    refine ⟨n, (him' _ _).2 hid, ?_, ?_⟩
    · intro v
      refine ⟨fun hv => ?_, fun hv => hv ▸ hver⟩
      exact hi' n DB_SCHEMA_VERSION v _ (hc.one (by decide +kernel)) hv hver
    · intro k at_ hm
      obtain ⟨e, he, hie, -⟩ := hent k at_ hm
      refine ⟨e, (him' _ _).2 hie, hnewA k at_ e hm he, ?_, hexact k at_ e hm he⟩
      refine F.asserted _ ((hmem _).2 (.about hm .attr)) ⟨.add, n, DB_SCHEMA_ATTRIBUTE, .ref e⟩
        ⟨rfl, rfl, hn, e, he, rfl⟩ rfl (show DB_SCHEMA_ATTRIBUTE ≠ DB_IDENT by decide) ?_
      rintro x' hx' y' hd' hop ⟨-, ha⟩
      obtain ⟨k', at', u, -, -, -, rfl⟩ := ((hmem x').1 hx').retracts (hd'.1.symm.trans hop)
      exact absurd (show DB_SCHEMA_ATTRIBUTE = DB_UNIQUE from ha.symm.trans hd'.2.1) (by decide)
  · intro e hne
    have hne' : ∀ k at_, (k, at_) ∈ attrs → AMap.get σ (tempidOf k) ≠ some e := by
      intro k at_ hm hk
      obtain ⟨n', h2, h3, -⟩ := hent k at_ hm
      rw [hk] at h2; obtain rfl := Option.some.inj h2
      exact hne k at_ hm h3
    exact ⟨hotherA e hne', hother e hne'⟩
  · intro e v h1 h0
    rcases F.origin e _ v (by decide) h1 with h2 | ⟨x, hx, hd⟩
    · exact absurd h2 h0
    · exact honly x hx _ hd (Or.inr rfl)
  · intro e hne v
    refine F.frame e _ (by decide) ?_ v
    rintro x hx y hd ⟨rfl, hay⟩
    exact hne (honly x hx y hd (Or.inl hay))

/-- The entity of a described attribute. -/
theorem DescAfter.touched {db d attrs db'} (A : DescAfter db d attrs db') {k at_ e} (hm : (k, at_) ∈ attrs)
    (hk : AMap.get db'.schema.identMap k = some e) : db'.schema.attr e = some at_ ∧
      ∀ a v, a ∈ schemaList → (Has db'.store.rows e a v ↔ (a, v) ∈ describing at_) := by
  obtain ⟨n, -, -, h⟩ := A.vocab
  obtain ⟨e', h1, h2, -, h3⟩ := h k at_ hm
  rw [hk] at h1
  obtain rfl := Option.some.inj h1
  exact ⟨h2, h3⟩

theorem DescRun.safe {db d attrs old ts now ids db' rep} (R : DescRun db d attrs old ts now ids db' rep)
    (hinv : AttrsInv db.schema db.store.rows db.views.schema) (A : DescAfter db d attrs db')
    (hv : ∀ k at_, (k, at_) ∈ attrs → ValidAttribute at_) : SafeAlterations db db' := by
  obtain ⟨hi, hti⟩ := rowsInv_reach R.kept
  obtain ⟨s1, -, -, -⟩ := attrs_step hi hti R.core.schemaOne R.tx
  intro e o ho
  have key : ∀ a v, Gains db.store.rows db'.store.rows e a v → ∃ k at_, (k, at_) ∈ attrs ∧
      at_.valueType = o.valueType ∧ at_.fulltext = o.fulltext ∧
      ∀ a v, a ∈ schemaList → (Has db'.store.rows e a v ↔ (a, v) ∈ describing at_) := by
    intro a v hg
    by_cases hx : ∃ k at_, (k, at_) ∈ attrs ∧ Has db'.store.rows e DB_IDENT (.keyword k)
    · obtain ⟨k, at_, hm, hh⟩ := hx
      obtain ⟨h1, h2⟩ := A.touched hm ((A.idents _ _).2 hh)
      have hst := s1 e
      rw [ho, h1] at hst
      refine ⟨k, at_, hm, ?_, ?_, h2⟩
      · cases hst with
        | same _ h1 h2 => rfl
        | altered h1 h2 => exact h2.valueType
      · cases hst with
        | same _ h1 h2 => rfl
        | altered h1 h2 => exact h2.fulltext
    · have := ((A.others e fun k at_ hm hh => hx ⟨k, at_, hm, hh⟩).2 a v hg.1).1 hg.2.1
      exact absurd this hg.2.2
  have hidx : ∀ {at_ : Attribute} {b}, (∀ a v, a ∈ schemaList → (Has db'.store.rows e a v ↔ (a, v) ∈ describing at_)) →
      Has db'.store.rows e DB_INDEX (.boolean b) → at_.index = b := by
    intro at_ b hx hh
    have := A.inv.one e DB_INDEX _ _ (by decide) hh ((hx DB_INDEX (.boolean at_.index) (by decide)).2 (by simp [describing]))
    injection this with this
    exact this.symm
  refine ⟨fun hg => ?_, fun v hg => ?_, fun hg => ?_⟩
  · obtain ⟨k, at_, hm, h1, -, hx⟩ := key _ _ hg
    have := A.inv.one e DB_IS_COMPONENT _ _ (by decide) hg.2.1
      ((hx DB_IS_COMPONENT (.boolean at_.component) (by decide)).2 (by simp [describing]))
    injection this with this
    rw [← h1]
    exact (hv k at_ hm).2.2 this.symm
  · obtain ⟨k, at_, hm, h1, -, hx⟩ := key _ _ hg
    obtain ⟨u, hu, rfl⟩ := describing_unique ((hx _ _ (by decide)).1 hg.2.1)
    have hi := (hv k at_ hm).1 (by rw [hu]; simp)
    have hh : Has db'.store.rows e DB_INDEX (.boolean true) :=
      (hx _ _ (by decide)).2 (by rw [← hi]; simp [describing])
    by_cases h0 : Has db.store.rows e DB_INDEX (.boolean true)
    · left
      refine ⟨?_, fun hg' => ?_⟩
      · have := ((hinv.attrs e o).1 ho).index _ h0
        injection this with this
        exact this.symm
      · have := A.inv.one e DB_INDEX _ _ (by decide) hh hg'.2.1
        cases this
    · exact Or.inr ⟨by decide, hh, h0⟩
  · obtain ⟨k, at_, hm, h1, h2, hx⟩ := key _ _ hg
    have hif := hidx hx hg.2.1
    obtain ⟨v1, v2, -⟩ := hv k at_ hm
    have hu : at_.unique = none := by
      cases hu : at_.unique with
      | none => rfl
      | some u => have := v1 (by rw [hu]; simp); rw [hif] at this; cases this
    refine ⟨?_, ?_⟩
    · rw [← h2]
      cases hf : at_.fulltext with
      | false => rfl
      | true => have := (v2 hf).2; rw [hif] at this; cases this
    · cases hou : o.unique with
      | none => exact Or.inl rfl
      | some u =>
        right
        have : ∃ v, Has db.store.rows e DB_UNIQUE v := by
          apply Classical.byContradiction
          intro hno
          rw [((hinv.attrs e o).1 ho).unique' fun v hv => hno ⟨v, hv⟩] at hou
          cases hou
        obtain ⟨v, hv⟩ := this
        refine ⟨v, by decide, hv, fun v' hv' => ?_⟩
        obtain ⟨u', hu', -⟩ := describing_unique ((hx _ _ (by decide)).1 hv')
        rw [hu] at hu'; cases hu'

end Mentat
