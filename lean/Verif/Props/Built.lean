import Verif.Proofs.Built
import Verif.Props.EntityParse
import Verif.Props.Session
/-
C88: a transaction built from typed values does what its text does.
-/
namespace Mentat
open EParse EdnParse QParse Edn

/-! ### The terms that are built -/

/-- The assertions that a call stands for. -/
def BuildCall.says : BuildCall → List (TxEntity TypedValue)
  | .tempid _ => []
  | .numbered _ => []
  | .add e a v => [.addOrRetract .add e a v]
  | .retract e a v => [.addOrRetract .retract e a v]
  | .describe e l => l.map fun x => .addOrRetract x.1 e x.2.1 x.2.2
  | .describeTempid n l => l.map fun x => .addOrRetract x.1 (.tempId (.external n)) x.2.1 x.2.2

theorem calls_entity (l : List (Op × EntidOrIdent × ValuePlace TypedValue)) : ∀ b : EntityBuilder,
    (b.calls l).builder.terms = b.builder.terms ++ l.map fun x => .addOrRetract x.1 b.entity x.2.1 x.2.2 := by
  induction l with
  | nil => intro b; simp [EntityBuilder.calls]
  | cons x r ih =>
    intro b
    obtain ⟨op, a, v⟩ := x
    cases op <;> simp [EntityBuilder.calls, ih, EntityBuilder.add, EntityBuilder.retract, TermBuilder.add, TermBuilder.retract]

theorem call_terms (b : TermBuilder) (c : BuildCall) : (b.call c).terms = b.terms ++ c.says := by
  cases c with
  | tempid n => simp [TermBuilder.call, TermBuilder.namedTempid, BuildCall.says]
  | numbered n => simp [TermBuilder.call, TermBuilder.numberedTempid, BuildCall.says]
  | add e a v => rfl
  | retract e a v => rfl
  | describe e l => simp [TermBuilder.call, calls_entity, TermBuilder.describe, BuildCall.says]
  | describeTempid n l =>
    simp [TermBuilder.call, calls_entity, TermBuilder.describe, TermBuilder.describeTempid, TermBuilder.namedTempid, BuildCall.says]

theorem foldl_terms (l : List BuildCall) : ∀ b : TermBuilder, (l.foldl TermBuilder.call b).terms = b.terms ++ l.flatMap (·.says) := by
  induction l with
  | nil => intro b; simp
  | cons c r ih => intro b; simp [List.foldl_cons, ih, call_terms]

/-- C88: whatever calls are made, the builder has the assertions and retractions they stand for, each once
and in the order of the calls. -/
theorem C88_terms (l : List BuildCall) : (TermBuilder.calls l).terms = l.flatMap (·.says) := by
  simp [TermBuilder.calls, foldl_terms]

/-! ### Built and written -/

/-- C88, for values of the types of their attributes: a transaction built from typed values and the transaction
of the EDN values have the same outcome, the same store, the same report and the same error. -/
theorem C88_values_partial {db : Db} {es : List (TxEntity TypedValue)} (h : ∀ x ∈ es, EntityFits db.schema x) (now : Int) :
    transactEntities db now (es.map (·.written)) = transactEntities db now es := by
  unfold transactEntities
  cases db.parts.tx.allocate 1 with
  | err e => rfl
  | panic => rfl
  | ok p =>
    obtain ⟨tx, part⟩ := p
    simp only [Res.bind]
    rw [stage1_written (env := ⟨db.schema, { db.parts with tx := part }, tx⟩) h]

/-- C88: and so have the transaction built by the calls and the text of any form that writes it. -/
theorem C88_text_partial {db : Db} {l : List BuildCall} {f : Edn}
    (h : ∀ x ∈ l.flatMap (·.says), EntityFits db.schema x) (hf : TxForm f ((l.flatMap (·.says)).map (·.written))) (now : Int) :
    transactText db now (print f) = transactEntities db now (TermBuilder.calls l).terms := by
  rw [C88_terms, C78_transacts_partial hf, C88_values_partial h]

/-- C88: inside a transaction in progress too, and what is left of it is the same. -/
theorem C88_progress_partial {p : InProgress} {b : TermBuilder} (h : ∀ x ∈ b.terms, EntityFits p.schema x) (now : Int) :
    p.transactEntities now (b.terms.map (·.written)) = b.transact p now := by
  unfold TermBuilder.transact InProgress.transactEntities
  cases p.parts.tx.allocate 1 with
  | err e => rfl
  | panic => rfl
  | ok q =>
    obtain ⟨tx, part⟩ := q
    simp only [Res.bind]
    rw [stage1_written (env := ⟨p.schema, { p.parts with tx := part }, tx⟩) h]

/-! ### Every built transaction has a text -/

/-- A number of 64 bits, or a keyword with namespace whose parts read back. -/
def IdWritable : EntidOrIdent → Prop
  | .entid n => Readable (.integer n)
  | .ident k => k.ns ≠ [] ∧ Readable (.keyword k.nname)

/-- A value that can be written: tempids are named, strings have no quotes, keywords read back, and the entries of
maps are in order. -/
inductive Writable : ValuePlace TypedValue → Prop
  | atom {v} : Readable v.edn → Writable (.atom v)
  | entid {e} : IdWritable e → Writable (.entid e)
  | tempId {s} : Readable (.text s) → Writable (.tempId (.external s))
  | lookupRef {a v} : IdWritable a → Readable v.edn → Writable (.lookupRef a v)
  | txFunction {f} : TxName f → Writable (.txFunction f)
  | vector {vs} : (∀ v ∈ vs, Writable v) → Writable (.vector vs)
  | map {m} : Ordered m → (∀ p ∈ m, IdWritable p.1) → (∀ p ∈ m, Writable p.2) → Writable (.map m)

def EntWritable : EntityPlace TypedValue → Prop
  | .entid e => IdWritable e
  | .tempId t => ∃ s, t = .external s ∧ Readable (.text s)
  | .lookupRef a v => IdWritable a ∧ Readable v.edn
  | .txFunction f => TxName f

/-- The attribute of an assertion is written forward. -/
def EntityWritable : TxEntity TypedValue → Prop
  | .addOrRetract _ e a v => EntWritable e ∧ IdWritable a ∧ (∀ k, a = .ident k → k.name.head? ≠ some '_') ∧ Writable v
  | .map m => Writable (.map m)

theorem idForm_of {e : EntidOrIdent} (h : IdWritable e) : IdForm e.edn e := by
  cases e with
  | entid n => exact .entid h
  | ident k =>
    have := IdForm.ident h.2 (nname_namespaced h.1)
    rw [nname_keyword] at this
    exact this

theorem edn_isAtom (v : TypedValue) : IsAtom v.edn := by
  cases v <;> simp [IsAtom, TypedValue.edn]

theorem id_isAtom (e : EntidOrIdent) : IsAtom e.edn := by
  cases e <;> simp [IsAtom, EntidOrIdent.edn]

theorem id_readable {e : EntidOrIdent} (h : IdWritable e) : Readable e.edn := by
  cases e with
  | entid n => exact h
  | ident k => exact h.2

theorem places_of {vs : List (ValuePlace TypedValue)} (h : ∀ v ∈ vs, ∃ f, PlaceForm f v.written) :
    ∃ fs, PlacesForm fs (vs.map (·.written)) := by
  induction vs with
  | nil => exact ⟨[], .nil⟩
  | cons v r ih =>
    obtain ⟨f, hf⟩ := h v List.mem_cons_self
    obtain ⟨fs, hfs⟩ := ih fun v hv => h v (List.mem_cons_of_mem _ hv)
    exact ⟨f :: fs, .cons hf hfs⟩

theorem pairs_of {m : MapNotation TypedValue} (hk : ∀ p ∈ m, IdWritable p.1) (h : ∀ p ∈ m, ∃ f, PlaceForm f p.2.written) :
    ∃ fs, PairsForm fs (ValuePlace.writtenMap m) := by
  rw [writtenMap_eq]
  induction m with
  | nil => exact ⟨[], .nil⟩
  | cons p r ih =>
    obtain ⟨f, hf⟩ := h p List.mem_cons_self
    obtain ⟨fs, hfs⟩ := ih (fun v hv => hk v (List.mem_cons_of_mem _ hv)) fun v hv => h v (List.mem_cons_of_mem _ hv)
    exact ⟨_ :: f :: fs, .cons (idForm_of (hk p List.mem_cons_self)) hf hfs⟩

theorem ordered_written {m : MapNotation TypedValue} (h : Ordered m) : Ordered (ValuePlace.writtenMap m) := by
  unfold Ordered at h ⊢
  rw [writtenMap_eq, List.pairwise_map]
  exact h

theorem place_of {v : ValuePlace TypedValue} (h : Writable v) : ∃ f, PlaceForm f v.written := by
  induction h with
  | atom h => exact ⟨_, .atom h (edn_isAtom _)⟩
  | entid h => exact ⟨_, .atom (id_readable h) (id_isAtom _)⟩
  | tempId h => exact ⟨_, .atom h (by simp [IsAtom])⟩
  | lookupRef ha hv => exact ⟨_, .lookupRef (idForm_of ha) hv⟩
  | txFunction h => exact ⟨_, .txFunction h⟩
  | vector _ ih =>
    obtain ⟨fs, hfs⟩ := places_of ih
    refine ⟨.vector fs, ?_⟩
    simp only [ValuePlace.written, writtenList_eq]
    exact .vector hfs
  | map ho hk _ ih =>
    obtain ⟨fs, hfs⟩ := pairs_of hk ih
    exact ⟨.map fs, .map hfs (.refl _) (ordered_written ho)⟩

theorem ent_of {e : EntityPlace TypedValue} (h : EntWritable e) : ∃ f, EntForm f e.written := by
  cases e with
  | entid e => exact ⟨_, .entid (idForm_of h)⟩
  | tempId t => obtain ⟨s, rfl, hs⟩ := h; exact ⟨_, .tempId hs⟩
  | lookupRef a v => exact ⟨_, .lookupRef (idForm_of h.1) h.2⟩
  | txFunction f => exact ⟨_, .txFunction h⟩

theorem forward_of {a : EntidOrIdent} (h : IdWritable a) (hf : ∀ k, a = .ident k → k.name.head? ≠ some '_') (n : NName)
    (hn : a.edn = .keyword n) : n.isForward = true := by
  cases a with
  | entid m => cases hn
  | ident k =>
    simp only [EntidOrIdent.edn, Edn.keyword.injEq] at hn
    subst hn
    have h0 : k.ns ≠ [] := h.1
    have : k.nname.name = k.name := by
      have hl : k.ns.length ≠ 0 := fun h => h0 (List.length_eq_zero_iff.mp h)
      simp [Keyword.nname, h0, NName.name, hl]
    simp only [NName.isForward, NName.isBackward, this, Bool.not_eq_true', decide_eq_false_iff_not]
    exact hf k rfl

theorem entity_of {x : TxEntity TypedValue} (h : EntityWritable x) : ∃ f, EntityForm f x.written := by
  cases x with
  | addOrRetract op e a v =>
    obtain ⟨he, ha, hf, hv⟩ := h
    obtain ⟨f1, h1⟩ := ent_of he
    obtain ⟨f2, h2⟩ := place_of hv
    exact ⟨_, .forward h1 (idForm_of ha) (forward_of ha hf) h2⟩
  | map m =>
    cases h with
    | map ho hk hv =>
      obtain ⟨fs, hfs⟩ := pairs_of hk fun p hp => place_of (hv p hp)
      exact ⟨.map fs, .map hfs (.refl _) (ordered_written ho)⟩

/-- C88: every built transaction whose tempids have names, whose strings have no quotes and whose keywords can be
read has a text. -/
theorem C88_written {es : List (TxEntity TypedValue)} (h : ∀ x ∈ es, EntityWritable x) : ∃ f, TxForm f (es.map (·.written)) := by
  suffices ∃ fs, EntitiesForm fs (es.map (·.written)) by
    obtain ⟨fs, hfs⟩ := this
    exact ⟨.vector fs, fs, rfl, hfs⟩
  induction es with
  | nil => exact ⟨[], .nil⟩
  | cons x r ih =>
    obtain ⟨f, hf⟩ := entity_of (h x List.mem_cons_self)
    obtain ⟨fs, hfs⟩ := ih fun v hv => h v (List.mem_cons_of_mem _ hv)
    exact ⟨f :: fs, .cons hf hfs⟩

/-! ### Committing -/

/-- C88: committing a builder gives a report only if the connection then has the tables of the transaction with
its terms transacted; whenever it gives an error, the connection is as it was. -/
theorem C88_commit {b : TermBuilder} {c c' : Conn} {p : InProgress} {now : Int} :
    (∀ e, b.commit c p now = (.err e, c') → c' = c) ∧
    (∀ rep, b.commit c p now = (.ok rep, c') → ∃ p' txes, b.transact p now = (.ok rep, p') ∧ c.commit p' = (.ok txes, c')) := by
  unfold TermBuilder.commit TermBuilder.transact
  cases ht : p.transactEntities now b.terms with
  | mk r p' =>
    cases r with
    | err x =>
      constructor
      · intro e h; cases h; rfl
      · intro rep h; cases h
    | panic =>
      constructor
      · intro e h; cases h
      · intro rep h; cases h
    | ok rep' =>
      simp only
      cases hc : c.commit p' with
      | mk r' c'' =>
        cases r' with
        | ok txes =>
          constructor
          · intro e h; cases h
          · intro rep h; cases h; exact ⟨_, _, rfl, hc⟩
        | err x =>
          constructor
          · intro e h; cases h; exact (commit_err hc).2
          · intro rep h; cases h
        | panic =>
          constructor
          · intro e h; cases h
          · intro rep h; cases h

theorem progress_ok {V : Type} [TransactableValue V] {p p' : InProgress} {es : List (TxEntity V)} {now : Int} {rep}
    (h : p.transactEntities now es = (.ok rep, p')) : transactEntities p.db now es = .ok (p'.db, rep) := by
  unfold InProgress.transactEntities at h
  split at h
  · rename_i terms ids hr
    obtain ⟨⟨tx, part⟩, h1, hr⟩ := Res.bind_ok_iff.1 hr
    obtain ⟨s, h2, hr⟩ := Res.bind_ok_iff.1 hr
    obtain ⟨ts, h3, hr⟩ := Res.bind_ok_iff.1 hr
    cases hr
    obtain ⟨db', h4, rfl, -⟩ := InProgress.transact_ok h
    unfold transactEntities
    rw [show p.db.parts.tx.allocate 1 = .ok (tx, part) from h1]
    simp only [Res.bind]
    rw [show (TxEnv.stage1 ⟨p.db.schema, { p.db.parts with tx := part }, tx⟩ es) = .ok s from h2]
    simp only
    rw [show resolveLookupRefs p.db.store s.terms = .ok terms from h3]
    exact h4
  · cases h
  · cases h

/-- C88: a builder that is committed with a report has transacted its terms, all of them in one transaction, and the
connection has the store of that transaction. -/
theorem C88_committed {b : TermBuilder} {c c' : Conn} {p : InProgress} {now : Int} {rep}
    (h : b.commit c p now = (.ok rep, c')) :
    ∃ db', transactEntities p.db now b.terms = .ok (db', rep) ∧ c'.store = db'.store ∧ c'.parts = db'.parts := by
  obtain ⟨p', txes, h1, h2⟩ := C88_commit.2 rep h
  refine ⟨p'.db, progress_ok h1, ?_⟩
  unfold Conn.commit at h2
  split at h2
  · cases h2
  · simp only at h2
    split at h2
    · cases h2; exact ⟨rfl, rfl⟩
    · cases h2
    · cases h2

/-! ### The hypotheses are met -/

/-- A tempid described with a string and a vector of numbers, a retraction from a lookup ref, and a reference to the
tempid. -/
def builtCalls : List BuildCall :=
  [.tempid "f".toList,
   .describeTempid "e".toList [(.add, .ident (kw "x" "one"), .atom (str "a")),
     (.add, .ident (kw "x" "many"), .vector [.atom (.long 1), .atom (.long 2)])],
   .retract (.lookupRef (.ident (kw "x" "id")) (str "k")) (.entid xMany) (.atom (.long 2)),
   .add (.entid (.entid xOne)) (.ident (kw "x" "ref")) (.tempId (.external "e".toList))]

theorem builtCalls_fits {s : Schema} (h1 : s.typeAt (.ident (kw "x" "one")) = some .string)
    (h2 : s.typeAt (.ident (kw "x" "many")) = some .long) (h3 : s.typeAt (.ident (kw "x" "id")) = some .string)
    (h4 : s.typeAt (.entid xMany) = some .long) (h5 : s.typeAt (.ident (kw "x" "ref")) = some .ref) :
    ∀ x ∈ builtCalls.flatMap (·.says), EntityFits s x := by
  simp only [builtCalls, List.flatMap_cons, List.flatMap_nil, BuildCall.says, List.map_cons, List.map_nil, List.nil_append,
    List.cons_append, List.append_nil, List.forall_mem_cons, List.not_mem_nil, false_imp_iff, implies_true, and_true]
  refine ⟨⟨trivial, ?_⟩, ⟨trivial, ?_⟩, ⟨?_, ?_⟩, ⟨trivial, ?_⟩⟩
  · intro t ht
    rw [show (EntidOrIdent.ident (kw "x" "one")).ahead = .ident (kw "x" "one") from rfl, h1] at ht
    cases ht; exact .atom rfl
  · intro t ht
    rw [show (EntidOrIdent.ident (kw "x" "many")).ahead = .ident (kw "x" "many") from rfl, h2] at ht
    cases ht
    refine .vector ?_
    simp only [List.forall_mem_cons, List.not_mem_nil, false_imp_iff, implies_true, and_true]
    exact ⟨.atom rfl, .atom rfl⟩
  · intro t ht; rw [h3] at ht; cases ht; rfl
  · intro t ht
    rw [show (EntidOrIdent.entid xMany).ahead = .entid xMany from rfl, h4] at ht
    cases ht; exact .atom rfl
  · intro t ht
    rw [show (EntidOrIdent.ident (kw "x" "ref")).ahead = .ident (kw "x" "ref") from rfl, h5] at ht
    cases ht; exact .tempId

theorem id_writable {ns n : String} (h : kwB (kw ns n).nname = true) (h0 : (kw ns n).ns ≠ []) : IdWritable (.ident (kw ns n)) :=
  ⟨h0, kwB_ok h⟩

theorem builtCalls_writable : ∀ x ∈ builtCalls.flatMap (·.says), EntityWritable x := by
  have h1 : IdWritable (.ident (kw "x" "one")) := id_writable (by decide) (by decide)
  have h2 : IdWritable (.ident (kw "x" "many")) := id_writable (by decide) (by decide)
  have h3 : IdWritable (.ident (kw "x" "id")) := id_writable (by decide) (by decide)
  have h4 : IdWritable (.entid xMany) := .integer _ (by decide) (by decide)
  have h5 : IdWritable (.ident (kw "x" "ref")) := id_writable (by decide) (by decide)
  have h6 : IdWritable (.entid xOne) := .integer _ (by decide) (by decide)
  have ht : EntWritable (.tempId (.external "e".toList)) := ⟨_, rfl, .text _ (by decide)⟩
  simp only [builtCalls, List.flatMap_cons, List.flatMap_nil, BuildCall.says, List.map_cons, List.map_nil, List.nil_append,
    List.cons_append, List.append_nil, List.forall_mem_cons, List.not_mem_nil, false_imp_iff, implies_true, and_true]
  refine ⟨⟨ht, h1, ?_, .atom (.text _ (by decide))⟩, ⟨ht, h2, ?_, .vector ?_⟩, ⟨⟨h3, .text _ (by decide)⟩, h4, ?_, .atom (.integer _ (by decide) (by decide))⟩,
    ⟨h6, h5, ?_, .tempId (.text _ (by decide))⟩⟩
  · rintro k ⟨⟩; decide
  · rintro k ⟨⟩; decide
  · simp only [List.forall_mem_cons, List.not_mem_nil, false_imp_iff, implies_true, and_true]
    exact ⟨.atom (.integer _ (by decide) (by decide)), .atom (.integer _ (by decide) (by decide))⟩
  · rintro k ⟨⟩
  · rintro k ⟨⟩; decide

def refAttr : Tx := (install "ref" DB_TYPE_REF DB_CARDINALITY_ONE, [tid "ref"])

/-- A store, calls whose values fit, a text that writes them, and a transaction that is accepted, with the datoms that
the calls say. -/
theorem C88_example : ∃ db db' rep f, Reach db ∧ (∀ x ∈ builtCalls.flatMap (·.says), EntityFits db.schema x) ∧
    TxForm f ((builtCalls.flatMap (·.says)).map (·.written)) ∧
    transactText db 0 (print f) = .ok (db', rep) ∧
    ((db'.store.rows.filter fun r => decide (r.e = 65541 ∨ r.a = 65540)).map fun r => (r.e, r.a, r.v)) =
      [(65541, xOne, str "a"), (65541, xMany, .long 2), (65541, xMany, .long 1), (xOne, 65540, .ref 65541)] := by
  obtain ⟨db, h, hp⟩ := reachKept_of_setup (txs := [dataTx, refAttr])
    (p := fun db =>
      decide (db.schema.typeAt (.ident (kw "x" "one")) = some .string) &&
      decide (db.schema.typeAt (.ident (kw "x" "many")) = some .long) &&
      decide (db.schema.typeAt (.ident (kw "x" "id")) = some .string) &&
      decide (db.schema.typeAt (.entid xMany) = some .long) &&
      decide (db.schema.typeAt (.ident (kw "x" "ref")) = some .ref) &&
      match transactEntities db 0 (TermBuilder.calls builtCalls).terms with
      | .ok (db', _) => decide (((db'.store.rows.filter fun r => decide (r.e = 65541 ∨ r.a = 65540)).map fun r => (r.e, r.a, r.v)) =
          [(65541, xOne, str "a"), (65541, xMany, .long 2), (65541, xMany, .long 1), (xOne, 65540, .ref 65541)])
      | _ => false) (by decide +kernel)
  simp only [Bool.and_eq_true] at hp
  obtain ⟨⟨⟨⟨⟨h1, h2⟩, h3⟩, h4⟩, h5⟩, hp⟩ := hp
  split at hp
  · rename_i db' rep ht
    obtain ⟨f, hf⟩ := C88_written builtCalls_writable
    have hfit := builtCalls_fits (of_decide_eq_true h1) (of_decide_eq_true h2) (of_decide_eq_true h3) (of_decide_eq_true h4) (of_decide_eq_true h5)
    refine ⟨db, db', rep, f, h.reach, hfit, hf, ?_, of_decide_eq_true hp⟩
    rw [C88_text_partial hfit hf]
    exact ht
  · cases hp

/-! ### Where C88 fails -/

/-- A number that is not declared a reference is refused as the value of a reference, although its text is accepted. -/
theorem C88_fails_refused : ∃ db es r, Reach db ∧ transactEntities db 0 es = .err .badValuePair ∧
    transactEntities db 0 (es.map TxEntity.written) = .ok r := by
  obtain ⟨db, h, hp⟩ := reachKept_of_setup (txs := [dataTx, refAttr])
    (p := fun db =>
      decide (transactEntities db 0 [TxEntity.addOrRetract .add (.entid (.entid xOne)) (.entid 65540) (.atom (TypedValue.long xId))] = .err .badValuePair) &&
      match transactEntities db 0 ([TxEntity.addOrRetract .add (.entid (.entid xOne)) (.entid 65540) (.atom (TypedValue.long xId))].map TxEntity.written) with
      | .ok _ => true
      | _ => false) (by decide +kernel)
  simp only [Bool.and_eq_true] at hp
  obtain ⟨h1, hp⟩ := hp
  split at hp
  · rename_i r hr
    exact ⟨db, _, r, h.reach, of_decide_eq_true h1, hr⟩
  · cases hp

/-- An entity as the value of a string attribute is accepted if it is dropped before the check (C11), although its text is
refused. -/
theorem C88_fails_accepted : ∃ db es r, Reach db ∧ transactEntities db 0 es = .ok r ∧
    transactEntities db 0 (es.map TxEntity.written) = .err .badValuePair := by
  obtain ⟨db, h, hp⟩ := reachKept_of_setup
    (txs := [(installIdentity "id2" DB_TYPE_STRING, [tid "id2"]), ([addT "e" xId (str "k")], [tid "e"])])
    (p := fun db =>
      decide (transactEntities db 0 ([TxEntity.addOrRetract .add (.tempId (tid "t")) (.entid xId) (.atom (str "k")),
        .addOrRetract .add (.tempId (tid "t")) (.entid 65539) (.entid (.entid 5))].map TxEntity.written) = .err .badValuePair) &&
      match transactEntities db 0 [TxEntity.addOrRetract .add (.tempId (tid "t")) (.entid xId) (.atom (str "k")),
        .addOrRetract .add (.tempId (tid "t")) (.entid 65539) (.entid (.entid 5))] with
      | .ok _ => true
      | _ => false) (by decide +kernel)
  simp only [Bool.and_eq_true] at hp
  obtain ⟨h1, hp⟩ := hp
  split at hp
  · rename_i r hr
    exact ⟨db, _, r, h.reach, hr, of_decide_eq_true h1⟩
  · cases hp

/-- A numbered tempid of the builder is the same as the one the transactor makes for a map without `:db/id`: what is
said of two entities is asserted of one. -/
theorem C88_fails_numbered : ∃ db' rep, transactEntities setupDb 0
      [TxEntity.addOrRetract .add (.tempId (({} : TermBuilder).numberedTempid 1).1) (.entid xOne) (.atom (str "a")),
       .map [(.entid xMany, .atom (.long 7))]] = .ok (db', rep) ∧
    ((db'.store.rows.filter fun r => decide (r.a = xOne ∨ r.a = xMany)).map fun r => (r.e, r.a, r.v)) =
      [(65539, xOne, str "a"), (65539, xMany, .long 7)] := by
  have hp : (match transactEntities setupDb 0
      [TxEntity.addOrRetract .add (.tempId (({} : TermBuilder).numberedTempid 1).1) (.entid xOne) (.atom (str "a")),
       .map [(.entid xMany, .atom (.long 7))]] with
      | .ok (db', _) => decide (((db'.store.rows.filter fun r => decide (r.a = xOne ∨ r.a = xMany)).map fun r => (r.e, r.a, r.v)) =
        [(65539, xOne, str "a"), (65539, xMany, .long 7)])
      | _ => false) = true := by decide +kernel
  split at hp
  · rename_i db' rep ht
    exact ⟨db', rep, ht, of_decide_eq_true hp⟩
  · cases hp

end Mentat
