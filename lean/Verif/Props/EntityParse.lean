import Verif.Proofs.EntityWf
import Verif.Props.QueryParse
import Verif.Props.EntitiesKnown
/-
C78: the text of a transaction is read as the entities it writes.
C79: whatever text is accepted as a transaction gives well-formed entities, and the parser always returns.
-/
namespace Mentat
namespace EParse
open Edn EdnParse QParse

/-! ### C78 -/

/-- C78, for entities all of whose values read back (C07): whatever entities a form denotes, nested to
any depth, the text of the form is read as those entities. -/
theorem C78_reads_partial {v : Edn} {es : List (TxEntity Edn)} (h : TxForm v es) :
    parseEntities (print v) = .ok es [] := parseEntities_reads h

/-- The text is transacted as the entities. -/
theorem C78_transacts_partial {v : Edn} {es : List (TxEntity Edn)} (h : TxForm v es)
    (db : Db) (now : Int) : transactText db now (print v) = transactEntities db now es := by
  rw [transactText, C78_reads_partial h]

/-- A form denotes one list of entities. -/
theorem C78_unambiguous {v : Edn} {es es' : List (TxEntity Edn)} (h : TxForm v es) (h' : TxForm v es') : es = es' := by
  have h1 := C78_reads_partial h
  rw [C78_reads_partial h'] at h1
  cases h1; rfl

/-- `[{:db/id "a", :x/many [1 2], :x/r {:x/id "k"}} [:db/retract (lookup-ref :x/id "k") :x/r (transaction-tx)]
[:db/add "a" :x/_r 65540]]`: the hypothesis of C78 is met, with every notation in it. -/
def formE : Edn :=
  .vector [
    .map [.keyword ⟨"db/id".toList, 2⟩, .text "a".toList, .keyword ⟨"x/many".toList, 1⟩, .vector [.integer 1, .integer 2],
      .keyword ⟨"x/r".toList, 1⟩, .map [.keyword ⟨"x/id".toList, 1⟩, .text "k".toList]],
    .vector [opForm .retract, .list [symE "lookup-ref", .keyword ⟨"x/id".toList, 1⟩, .text "k".toList],
      .keyword ⟨"x/r".toList, 1⟩, .list [.plainSymbol "transaction-tx".toList]],
    .vector [opForm .add, .text "a".toList, .keyword ⟨"x/_r".toList, 1⟩, .integer 65540]]

theorem idForm {k : NName} (h : kwB k = true) (hn : k.isNamespaced = true) : IdForm (.keyword k) (.ident k.keyword) := .ident (kwB_ok h) hn

theorem atomForm {v : Edn} (h : readB v = true) (ha : atomOf v = some v) : PlaceForm v (.atom v) := .atom (readB_ok v h) (atomOf_isAtom ha).2

theorem C78_example : TxForm formE
    [.map [(dbIdKey, .atom (.text "a".toList)), (.ident (kw "x" "many"), .vector [.atom (.integer 1), .atom (.integer 2)]),
       (.ident (kw "x" "r"), .map [(.ident (kw "x" "id"), .atom (.text "k".toList))])],
     .addOrRetract .retract (.lookupRef (.ident (kw "x" "id")) (.text "k".toList)) (.ident (kw "x" "r"))
       (.txFunction "transaction-tx".toList),
     .addOrRetract .add (.entid (.entid 65540)) (.ident (kw "x" "r")) (.atom (.text "a".toList))] := by
  have h1 : IdForm (.keyword ⟨"x/id".toList, 1⟩) (.ident (kw "x" "id")) := idForm (by decide) (by decide)
  have h2 : IdForm (.keyword ⟨"x/r".toList, 1⟩) (.ident (kw "x" "r")) := idForm (by decide) (by decide)
  have h3 : IdForm (.keyword ⟨"x/many".toList, 1⟩) (.ident (kw "x" "many")) := idForm (by decide) (by decide)
  have h4 : IdForm (.keyword ⟨"db/id".toList, 2⟩) dbIdKey := idForm (by decide) (by decide)
  refine ⟨_, rfl, .cons (.map (.cons h4 (atomForm (by decide) rfl) (.cons h3 (.vector (.cons (atomForm (by decide) rfl)
      (.cons (atomForm (by decide) rfl) .nil))) (.cons h2 (.map (.cons h1 (atomForm (by decide) rfl) .nil) (.refl _) ?_) .nil)))
      (.refl _) ?_) (.cons (.forward (.lookupRef h1 (readB_ok _ (by decide))) h2 ?_ (.txFunction ⟨symB_ok (by decide), ?_⟩))
      (.cons (.backward (ns := "x".toList) (n := "r".toList) (k := ⟨"x/r".toList, 1⟩) (.entid (.entid (.integer _ (by decide) (by decide))))
        (atomForm (by decide) rfl) trivial (by decide) (by decide) (kwB_ok (by decide))) .nil))⟩
  · unfold Ordered; decide
  · unfold Ordered; decide
  · rintro k ⟨⟩; decide
  · unfold FnName; decide

/-! ### Where C78 fails -/

/-- A repeated attribute in map notation is not an error, and not two assertions: only the last is kept. -/
theorem C78_fails_repeated : parseEntities "[{:db/id 65540 :x/many 1 :x/many 2}]".toList =
    .ok [.map [(dbIdKey, .atom (.integer 65540)), (.ident (kw "x" "many"), .atom (.integer 2))]] [] := by
  kernel_rfl

/-- The words of the grammar end anywhere: `:db/add1` is `:db/add` of entity 1, and `(lookup-ref5 a)` a lookup of `a` by
attribute 5. -/
theorem C78_fails_words :
    parseEntities "[[:db/add1 :x/one \"a\"]]".toList =
      .ok [.addOrRetract .add (.entid (.entid 1)) (.ident (kw "x" "one")) (.atom (.text "a".toList))] [] ∧
    parseEntities "[[:db/add (lookup-ref5 a) :x/one \"a\"]]".toList =
      .ok [.addOrRetract .add (.lookupRef (.entid 5) (.plainSymbol "a".toList)) (.ident (kw "x" "one")) (.atom (.text "a".toList))] [] :=
  ⟨by kernel_rfl, by kernel_rfl⟩

/-- Reversing is done once: `:x/__one` is taken as the attribute `:x/_one`, which is reversed again when it is transacted. -/
theorem C78_fails_reversed : parseEntities "[[:db/retract 65540 :x/__r 65541]]".toList =
    .ok [.addOrRetract .retract (.entid (.entid 65541)) (.ident (kw "x" "_r")) (.atom (.integer 65540))] [] := by
  kernel_rfl

/-! ### C79 -/

/-- C79: for every text, the parser answers, and what it accepts it accepts whole.  The entities have entids
and integers of 64 bits and keywords with proper parts, at every depth; maps have distinct keys. -/
theorem C79_wellformed (s : Text) : parseEntities s ≠ .stuck ∧
    ∀ es rest, parseEntities s = .ok es rest → rest = [] ∧ ∀ e ∈ es, EntityWf e := parseEntities_ok s

/-- What is accepted. -/
theorem C79_example : ∃ s es, parseEntities s = .ok es [] ∧ es.length = 3 :=
  ⟨_, _, C78_reads_partial C78_example, rfl⟩

/-- The parser does not always return entities or an error: an attribute named only `_` and an entid beyond 64 bits
are panics. -/
theorem C79_fails_panic :
    parseEntities "[[:db/add 65540 :x/_ 65541]]".toList = .panic ∧
    parseEntities "[[:db/add 9223372036854775808 :x/one \"a\"]]".toList = .panic :=
  ⟨by kernel_rfl, by kernel_rfl⟩

/-! ### Histories of texts -/

/-- The atom of a flat assertion is well formed. -/
def FlatOk : TxEntity Edn → Prop
  | .addOrRetract _ _ _ (.atom x) => AtomOk x
  | _ => True

theorem flatOk_place (op : Op) (e : EntityPlace Edn) (a : EntidOrIdent) {v} (h : PlaceWf v) : FlatOk (.addOrRetract op e a v) := by
  cases h <;> trivial

theorem reversed_ok (e : EntityPlace Edn) {m : MapNotation Edn} (h : ∀ p ∈ m, PlaceWf p.2) :
    ∀ x ∈ reversedEntries e m, FlatOk x := by
  intro x hx
  simp only [reversedEntries, List.mem_map, List.mem_filter] at hx
  obtain ⟨p, ⟨hp, -⟩, rfl⟩ := hx
  exact flatOk_place _ _ _ (h p hp)

mutual
theorem flatten_ok (op : Op) (e : EntityPlace Edn) (a : EntidOrIdent) (k : Nat) :
    ∀ v : ValuePlace Edn, PlaceWf v → ∀ x ∈ (flatten op e a k v).1, FlatOk x
  | .vector vs, h => by
    have hv := flattenVec_ok op e a k vs (by cases h; assumption)
    unfold flatten
    split
    · intro x hx; rw [List.mem_singleton] at hx; subst hx; trivial
    · exact hv
  | .map m, h => by
    have hm := flattenFwd_ok (aboutPlace k m).1 (aboutPlace k m).2 m (by cases h; assumption)
    have hr := reversed_ok (aboutPlace k m).1 (m := m) (by cases h; assumption)
    unfold flatten
    split
    · intro x hx; rw [List.mem_singleton] at hx; subst hx; trivial
    · intro x hx
      rcases List.mem_append.mp hx with hx | hx
      · exact hr x hx
      · rcases List.mem_cons.mp hx with rfl | hx
        · cases (aboutPlace k m).1 <;> trivial
        · exact hm x hx
  | .entid _, h => by cases h
  | .tempId _, h => by cases h
  | .lookupRef _ _, _ => by intro x hx; unfold flatten at hx; rw [List.mem_singleton] at hx; subst hx; trivial
  | .txFunction _, _ => by intro x hx; unfold flatten at hx; rw [List.mem_singleton] at hx; subst hx; trivial
  | .atom y, h => by
    intro x hx; unfold flatten at hx; rw [List.mem_singleton] at hx; subst hx
    exact flatOk_place _ _ _ h
theorem flattenVec_ok (op : Op) (e : EntityPlace Edn) (a : EntidOrIdent) (k : Nat) :
    ∀ vs : List (ValuePlace Edn), (∀ v ∈ vs, PlaceWf v) → ∀ x ∈ (flattenVec op e a k vs).1, FlatOk x
  | [], _ => by simp [flattenVec]
  | v :: r, h => by
    have h1 := flattenVec_ok op e a k r fun v hv => h v (List.mem_cons_of_mem _ hv)
    have h2 := flatten_ok op e a (flattenVec op e a k r).2 v (h v List.mem_cons_self)
    unfold flattenVec
    intro x hx
    rcases List.mem_append.mp hx with hx | hx
    · exact h1 x hx
    · exact h2 x hx
theorem flattenFwd_ok (e : EntityPlace Edn) (k : Nat) :
    ∀ m : List (EntidOrIdent × ValuePlace Edn), (∀ p ∈ m, PlaceWf p.2) → ∀ x ∈ (flattenFwd e k m).1, FlatOk x
  | [], _ => by simp [flattenFwd]
  | p :: r, h => by
    have h1 := flattenFwd_ok e k r fun v hv => h v (List.mem_cons_of_mem _ hv)
    have h2 := flattenEntry_ok e (flattenFwd e k r).2 p (h p List.mem_cons_self)
    unfold flattenFwd
    intro x hx
    simp only at hx
    split at hx
    · exact h1 x hx
    · rcases List.mem_append.mp hx with hx | hx
      · exact h1 x hx
      · exact h2 x hx
theorem flattenEntry_ok (e : EntityPlace Edn) (k : Nat) :
    ∀ p : EntidOrIdent × ValuePlace Edn, PlaceWf p.2 → ∀ x ∈ (flattenEntry e k p).1, FlatOk x
  | (a, v), h => by
    have h1 := flatten_ok .add e a k v h
    unfold flattenEntry
    exact h1
end

theorem flattenMap_ok (e : EntityPlace Edn) (k : Nat) :
    ∀ m : MapNotation Edn, (∀ p ∈ m, PlaceWf p.2) → ∀ x ∈ (flattenMap e k m).1, FlatOk x
  | [], _ => by simp [flattenMap]
  | p :: r, h => by
    have h1 := flattenMap_ok e k r fun v hv => h v (List.mem_cons_of_mem _ hv)
    unfold flattenMap
    intro x hx
    simp only at hx
    split at hx
    · exact h1 x hx
    · rcases List.mem_append.mp hx with hx | hx
      · exact h1 x hx
      · exact flatten_ok _ _ _ _ _ (h p List.mem_cons_self) x hx

theorem flattenAll_ok (k : Nat) (es : List (TxEntity Edn)) (h : ∀ e ∈ es, EntityWf e) : ∀ x ∈ (flattenAll k es).1, FlatOk x := by
  induction es generalizing k with
  | nil => simp [flattenAll]
  | cons e r ih =>
    have he := h e List.mem_cons_self
    unfold flattenAll
    intro x hx
    rcases List.mem_append.mp hx with hx | hx
    · cases e with
      | addOrRetract op e a v => exact flatten_ok _ _ _ _ _ he.2.2 x hx
      | map m => exact flattenMap_ok _ _ m (fun p hp => (he.2 p hp).2) x hx
    · exact ih _ (fun e he => h e (List.mem_cons_of_mem _ he)) x hx

/-- The atoms among the assertions read back once stored: no nil UUID, no fraction of a second before 1970, no
keyword without namespace. -/
def ReadBack (xs : List (TxEntity Edn)) : Prop :=
  ∀ op e a x w, TxEntity.addOrRetract op e a (.atom x) ∈ xs → TypedValue.fromEdn x = some w → w.Readable

theorem typed_storable {s : Schema} {x : Edn} {vt : ValueType} {w : TypedValue} (h : s.toTypedValue x vt = .ok w)
    (hx : AtomOk x) (hr : ∀ w, TypedValue.fromEdn x = some w → w.Readable) : w.Storable := by
  unfold Schema.toTypedValue at h
  split at h
  · simp at h
  · rename_i v hv
    have hvr := hr v hv
    have hp : v.Proper := by
      cases x with
      | float f =>
        cases f <;> simp only [TypedValue.fromEdn, reduceCtorEq, Option.some.injEq] at hv
        subst hv; trivial
      | keyword k => simp only [TypedValue.fromEdn, Option.some.injEq] at hv; subst hv; exact hx
      | uuid u => simp only [TypedValue.fromEdn, Option.some.injEq] at hv; subst hv; exact hx
      | _ => simp only [TypedValue.fromEdn, reduceCtorEq, Option.some.injEq] at hv <;> (subst hv; trivial)
    split at h
    all_goals first
      | (cases h; exact ⟨hp, hvr⟩)
      | (cases h; exact storable_ref _)
      | (obtain ⟨e, -, h⟩ := Res.bind_ok_iff.1 h; cases h; exact storable_ref _)
      | simp at h

/-- The values of the terms that a text is transacted as read back. -/
theorem text_storable {db : Db} {es : List (TxEntity Edn)} {s terms} (hw : ∀ e ∈ es, EntityWf e)
    (hb : ReadBack (flattenAll 0 es).1) (hs : (startEnv db).stage1 es = .ok s) (ht : resolveLookupRefs db.store s.terms = .ok terms) :
    ∀ x ∈ terms, ∀ v, x.v = .inl v → v.Storable := by
  intro y hy v hv
  obtain ⟨hm, -, -⟩ := stage1_interned hs
  obtain ⟨t, htm, -, -, -, h2⟩ := forall2_mem (C29_resolves ht) hy
  obtain ⟨x, hx, hmx⟩ := forall2_mem hm htm
  obtain ⟨x, hx', rfl⟩ := List.mem_map.1 hx
  have hok := flattenAll_ok 0 es hw x hx'
  rw [hv] at h2
  cases htv : t.v with
  | inr l =>
    rw [htv] at h2
    cases l with
    | tempId i => cases h2
    | lookupRef a w => obtain ⟨m, -, h⟩ := h2; cases h; exact storable_ref _
  | inl w =>
    rw [htv] at h2
    cases h2
    cases x with
    | map m => exact hmx.elim
    | addOrRetract op e a p =>
      obtain ⟨-, ⟨-, at_, -, -, -, h3⟩ | ⟨fa, at_, z, -, -, -, -, -, -, h3⟩⟩ := hmx
      · rw [htv] at h3
        cases p with
        | atom x =>
          rcases h3 with ⟨-, t, -, h⟩ | ⟨-, w, hw, h⟩
          · cases h
          · cases h
            exact typed_storable hw hok fun w h => hb op e a x w hx' h
        | entid x => obtain ⟨n, -, h⟩ := h3; cases h; exact storable_ref _
        | tempId t => cases h3
        | lookupRef a v => obtain ⟨-, l, -, h⟩ := h3; cases h
        | txFunction f => obtain ⟨-, -, h⟩ := h3; cases h; exact storable_ref _
        | vector vs => exact h3.elim
        | map m => exact h3.elim
      · rw [htv] at h3
        cases z with
        | inl n => cases h3; exact storable_ref _
        | inr l => cases h3

/-- Reachable from a fresh store by transacting texts, at times after 1970.  The values of the texts must
read back; the values under reversed attributes must be allocated (C67); no attribute in use is undefined, and
the attributes that describe attributes are not redefined. -/
inductive ReachText : Db → Prop
  | boot {now db} : 0 ≤ now → createCurrentVersion now = .ok db → ReachText db
  | step {db db' now s es rep} : ReachText db → 0 ≤ now → parseEntities s = .ok es [] →
      ReadBack (flattenAll 0 es).1 → KnownReversed db (flattenAll 0 es).1 → transactText db now s = .ok (db', rep) →
      KeepsUsedAttributes db db' → SchemaOne db.schema → ReachText db'

/-- C79: a store reached by texts is a store reached by transactions of storable values, so that every
theorem about such stores holds of it. -/
theorem C79_reach {db : Db} (h : ReachText db) : ReachData db := by
  induction h with
  | boot h0 h => exact .boot h0 h
  | step _ h0 hp hb hk ht hu h1 ih =>
    rw [transactText, hp] at ht
    obtain ⟨-, s, terms, hs, hl, ht⟩ := transactEntities_ok.1 ht
    exact .step ih h0 ((entities_terms ih.kept.reach hs hl).2 hk)
      (text_storable ((C79_wellformed _).2 _ _ hp).2 hb hs hl) ht hu h1

/-- From texts to answers: after any such history of transaction texts, the text of a query of patterns
with known attributes is answered with one row for each assignment under which every pattern is matched by a
datom that was asserted and not retracted since. -/
theorem C79_answers_partial {db : Db} (hr : ReachText db) (fl : CC.Floats) (ftId : Text → Int)
    {v : Edn} {q : Query} (h : QueryForm v q) (hv : Readable v) {ps : List Pat} {xs : List Var}
    (hq : q = { find := .rel (xs.map .var), withVars := [], inVars := [], limit := .none, clauses := ps.map .pattern, order := none })
    (hps : ∀ p ∈ ps, p.lower.Known ∧ p.lower.named = false ∧ ∀ i, p.lower.v ≠ .constant (.bigInteger i)) (hne : xs ≠ [])
    (hn : xs.Nodup) (hxs : ∀ x ∈ xs, ∃ p ∈ ps, x ∈ p.lower.vars) :
    ∃ rows : List (List TypedValue),
      ((parseFind (print v)).bind fun q => CC.runQuery fl ⟨db.schema, none⟩ (db.tables ftId) q ⟨[], []⟩) =
        .ok (.rel xs.length rows.flatten) ∧ rows.Nodup ∧
      ∀ row, row ∈ rows ↔ ∃ ρ : Assign, ρ.Proper ∧ (∀ p ∈ ps, p.lower.Asserted db.schema db.store.log ρ) ∧ row = xs.map ρ :=
  C75_answers_partial (C79_reach hr) fl ftId h hv hq hps hne hn hxs

/-! ### A history of texts -/

def readBackB : TxEntity Edn → Bool
  | .addOrRetract _ _ a v => !Backward a && match v with
    | .atom x => match TypedValue.fromEdn x with
      | some w => storableB w
      | none => true
    | _ => true
  | .map _ => true

theorem readBackB_ok {xs : List (TxEntity Edn)} (h : xs.all readBackB = true) (db : Db) : ReadBack xs ∧ KnownReversed db xs := by
  rw [List.all_eq_true] at h
  constructor
  · intro op e a x w hm hw
    have := h _ hm
    simp only [readBackB, hw, Bool.and_eq_true] at this
    exact (storableB_spec this.2).2
  · intro op e a v hm hb
    have := h _ hm
    simp [readBackB, hb] at this

def runTexts : List Text → Db → Option Db
  | [], db => some db
  | s :: rest, db => match parseEntities s with
    | .ok es [] => if (flattenAll 0 es).1.all readBackB = true ∧ schemaOneB db.schema = true then
        match transactEntities db 0 es with
        | .ok (db', _) => if KeepsUsedAttributes db db' then runTexts rest db' else none
        | _ => none
      else none
    | _ => none

theorem runTexts_reach {ss : List Text} {db db' : Db} (hr : ReachText db)
    (h : runTexts ss db = some db') : ReachText db' := by
  induction ss generalizing db with
  | nil => simp only [runTexts, Option.some.injEq] at h; exact h ▸ hr
  | cons s rest ih =>
    unfold runTexts at h
    split at h
    · rename_i es hp
      split at h
      · rename_i hk
        split at h
        · rename_i db1 rep ht
          split at h
          · rename_i hku
            obtain ⟨h1, h2⟩ := readBackB_ok hk.1 db
            exact ih (.step hr (Int.le_refl 0) hp h1 h2 (by rw [transactText, hp]; exact ht) hku (schemaOneB_iff.1 hk.2)) h
          · simp at h
        · simp at h
      · simp at h
    · simp at h

/-- Texts that install an attribute, use it and change the value; the query's text is answered with the last value. -/
theorem C79_history_example : ∃ db, ReachText db ∧
    ((parseFind "[:find ?v :where [?e :x/name ?v]]".toList).bind fun q =>
      CC.runQuery QueryEx.floats ⟨db.schema, none⟩ (db.tables fun _ => 1) q ⟨[], []⟩) = .ok (.rel 1 [str "b"]) := by
  have h : ((runTexts 
      ["[{:db/ident :x/name, :db/valueType :db.type/string, :db/cardinality :db.cardinality/one, :db/unique :db.unique/identity, :db/index true}]".toList,
       "[{:db/id \"e\" :x/name \"a\"}]".toList,
       "[[:db/add (lookup-ref :x/name \"a\") :x/name \"b\"]]".toList] bootDb).map fun db =>
      (parseFind "[:find ?v :where [?e :x/name ?v]]".toList).bind fun q =>
        CC.runQuery QueryEx.floats ⟨db.schema, none⟩ (db.tables fun _ => 1) q ⟨[], []⟩) = some (.ok (.rel 1 [str "b"])) := by kernel_rfl
  obtain ⟨db, hd, hq⟩ := Option.map_eq_some_iff.mp h
  exact ⟨db, runTexts_reach (.boot (Int.le_refl 0) bootDb_eq) hd, hq⟩

end EParse
end Mentat
