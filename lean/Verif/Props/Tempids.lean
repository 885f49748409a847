import Verif.Props.Datoms
/-
C22-C27: tempids.  `σ` is the assignment of entities to tempids a transaction makes, `U` its
restriction to the tempids that denote entities which existed before ("upserting" tempids).
-/
namespace Mentat

/-! ### C22 -/

/-- An assertion with a tempid in both the entity and the value place. -/
def isComplex (x : TTerm) : Bool :=
  match x.op, x.e, x.v with
  | .add, .inr _, .inr _ => true
  | _, _, _ => false

theorem from_count {s : Schema} {terms : List TTerm} : ∀ {g0 : Generation} {i0 : List RTerm}
    {g : Generation} {inert : List RTerm}, Generation.from s terms g0 i0 = .ok (g, inert) →
    g.upsertsEV.length ≤ g0.upsertsEV.length + terms.countP isComplex := by
  induction terms with
  | nil =>
    intro g0 i0 g inert h
    simp only [Generation.from, Res.ok.injEq, Prod.mk.injEq] at h
    obtain ⟨rfl, rfl⟩ := h
    simp
  | cons x r ih =>
    intro g0 i0 g inert h
    obtain ⟨op, e, a, v⟩ := x
    unfold Generation.from at h
    rw [List.countP_cons]
    cases e with
    | inl e =>
      cases v with
      | inl v => have := ih h; simp only [isComplex] at this ⊢; omega
      | inr t => have := ih h; simp only [isComplex] at this ⊢; omega
    | inr t =>
      cases v with
      | inl v =>
        cases hu : addAndUnique s op a with
        | err _ => simp [hu] at h
        | panic => simp [hu] at h
        | ok b =>
          cases b <;> simp only [hu] at h <;> have := ih h <;> simp only at this <;> omega
      | inr t2 =>
        cases hu : addAndUnique s op a with
        | err _ => simp [hu] at h
        | panic => simp [hu] at h
        | ok b =>
          cases b with
          | false => simp only [hu] at h; have := ih h; simp only at this; omega
          | true =>
            obtain ⟨rfl, -⟩ := addAndUnique_true hu
            simp only [hu] at h
            have := ih h
            simp only [List.length_append, List.length_cons, List.length_nil] at this
            simp only [isComplex, if_true]
            omega

theorem evolveLoop_more {st : Store} : ∀ {fuel fuel' : Nat} {g : Generation} {T : TempIdMap} {r},
    evolveLoop st fuel g T = some r → fuel ≤ fuel' → evolveLoop st fuel' g T = some r := by
  intro fuel
  induction fuel with
  | zero =>
    intro fuel' g T r h _
    unfold evolveLoop at h ⊢
    split at h
    · simp at h
    · rename_i hc; simp only [hc]; exact h
  | succ n ih =>
    intro fuel' g T r h hle
    unfold evolveLoop at h ⊢
    split at h
    · rename_i hc
      simp only [hc, if_true]
      obtain ⟨m, rfl⟩ : ∃ m, fuel' = m + 1 := ⟨fuel' - 1, by omega⟩
      simp only at h ⊢
      cases hs : evolveStep st g T with
      | err e => simp only [hs] at h ⊢; exact h
      | panic => simp only [hs] at h ⊢; exact h
      | ok p => simp only [hs] at h ⊢; exact ih h (by omega)
    · rename_i hc; simp only [hc]; exact h

/-- C22: the resolution loop ends after at most (number of complex assertions) + 1 generations,
for every store and every list of terms: `evolveLoop st fuel`, the loop cut off after `fuel`
generations, is not cut off, and does not depend on `fuel` any more. -/
theorem C22_terminates {s : Schema} {st : Store} {terms : List TTerm} {g inert}
    (h : Generation.from s terms {} [] = .ok (g, inert)) :
    ∃ r, ∀ fuel, terms.countP isComplex + 1 ≤ fuel → evolveLoop st fuel g [] = some r := by
  have hc := from_count h
  simp only [List.length_nil, Nat.zero_add] at hc
  cases hr : evolveLoop st (terms.countP isComplex + 1) g [] with
  | none =>
    exact absurd hr (evolveLoop_terminates (by unfold Generation.measure; omega))
  | some r => exact ⟨r, fun fuel hf => evolveLoop_more hr hf⟩

/-- Three tempids chained through a unique-identity reference take three generations. -/
example : evolveLoop { rows := [⟨1, 10, .long 1, 0, true, true⟩, ⟨2, 11, .ref 1, 0, true, true⟩,
      ⟨3, 11, .ref 2, 0, true, true⟩], log := [] } 2
    { upsertsE := [⟨tid "a", 10, .long 1⟩], upsertsEV := [⟨tid "b", 11, tid "a"⟩, ⟨tid "c", 11, tid "b"⟩] } []
      = none ∧
    evolveLoop { rows := [⟨1, 10, .long 1, 0, true, true⟩, ⟨2, 11, .ref 1, 0, true, true⟩,
      ⟨3, 11, .ref 2, 0, true, true⟩], log := [] } 3
    { upsertsE := [⟨tid "a", 10, .long 1⟩], upsertsEV := [⟨tid "b", 11, tid "a"⟩, ⟨tid "c", 11, tid "b"⟩] } []
      = some (.ok ({ upserted := [⟨.add, 3, 11, .ref 2⟩] }, [(tid "a", 1), (tid "b", 2), (tid "c", 3)])) := by
  decide

/-! ### C23 -/

/-- C23: there is one assignment `σ` of entities to tempids, the one reported, such that
* every input term has a meaning under it;
* every addition logged, other than the transaction's own instant, is the meaning of an input
  assertion;
* every retraction logged is of a datom of an entity and attribute that an input term is about. -/
theorem C23_one_entity {db db' : Db} {now terms ids rep} (hr : Reach db)
    (h : transactTerms db now terms ids = .ok (db', rep)) :
    ∃ σ : TempIdMap, (∀ s n, AMap.get rep.tempids s = some n ↔ AMap.get σ (.external s) = some n) ∧
      (∀ t ∈ ids, ∃ n, AMap.get σ t = some n) ∧
      (∀ x ∈ terms, ∃ y, Denotes σ x y) ∧
      ∃ new, db'.store.log = db.store.log ++ new ∧
        (∀ l ∈ new, l.added = true →
          (∃ x ∈ terms, Denotes σ x ⟨.add, l.e, l.a, l.v⟩) ∨
          (l.e = rep.txId ∧ l.a = DB_TX_INSTANT ∧ l.v = .instant rep.txInstant)) ∧
        (∀ l ∈ new, l.added = false →
          ∃ x ∈ terms, ∃ op v, Denotes σ x ⟨op, l.e, l.a, v⟩ ∧ (op = .retract ∨ v ≠ l.v)) := by
  have hi := histInv_reach hr
  obtain ⟨T⟩ := transact_trace h
  obtain ⟨U, sp, hsound, hcomplete⟩ := T.terms_spec
  obtain ⟨-, -, hlr, -, -, hlog, -⟩ := apply_ok T.applied
  refine ⟨T.s3.tempids, ?_, sp.cover, ?_, T.lr, by rw [T.log, hlog rfl], ?_, ?_⟩
  · intro s n; rw [T.tempids]; exact ⟨get_external, get_external'⟩
  · intro x hx
    rcases hcomplete x hx with ⟨y, -, hy⟩ | ⟨-, -, t, n, v, he, ht, hv, -⟩
    · exact ⟨y, hy⟩
    · exact ⟨⟨x.op, n, x.a, v⟩, rfl, rfl, by rw [he]; exact sp.sub _ _ ht, hv.mono sp.sub⟩
  · intro l hl ha
    rw [hlr, mem_logRowsOf] at hl
    rcases hl with ⟨q, hq, hin, rfl⟩ | ⟨r, hr, ⟨q, hq, hd⟩, rfl⟩
    · rcases (T.mem_queue.mp hq).2 with ⟨-, hm | ⟨h1, h2, h3⟩⟩ | ⟨hadd, -⟩
      · exact Or.inl (hsound _ hm)
      · exact Or.inr ⟨h2, h1, h3⟩
      · rw [hin.1] at hadd; simp at hadd
    · simp at ha
  · intro l hl ha
    rw [hlr, mem_logRowsOf] at hl
    rcases hl with ⟨q, hq, hin, rfl⟩ | ⟨r, hr, ⟨q, hq, hd⟩, rfl⟩
    · simp at ha
    · rcases (T.mem_queue.mp hq).2 with ⟨hadd, hm | ⟨h1, h2, h3⟩⟩ | ⟨hadd, hm⟩
      · obtain ⟨x, hx, hxd⟩ := hsound _ hm
        refine ⟨x, hx, .add, q.v, ?_, Or.inr ?_⟩
        · rw [hd.1.1, hd.1.2.1]; exact hxd
        · rcases hd.2 with h | h
          · rw [hadd] at h; simp at h
          · exact h.2
      · exfalso
        exact hi.no_datom_of_next r.a r.v ⟨r, hr, by rw [hd.1.1, h2]; exact T.txid.1, rfl, rfl⟩
      · obtain ⟨x, hx, hxd⟩ := hsound _ hm
        exact ⟨x, hx, .retract, q.v, by rw [hd.1.1, hd.1.2.1]; exact hxd, Or.inl rfl⟩

/-! ### C24, C25 -/

/-- For an indexed unique attribute, `resolve_avs` finds exactly the entity having the value. -/
theorem lookupAV_iff {s : Schema} {st : Store} (hi : RowsInv s st.rows) {a : Entid} {v : TypedValue}
    {at_ : Attribute} (hat : s.attr a = some at_) (hu : at_.unique.isSome) (hx : at_.index = true)
    (n : Entid) : st.lookupAV a v = some n ↔ Has st.rows n a v := by
  constructor
  · intro h; exact lookupAV_some h
  · rintro ⟨r, hr, rfl, rfl, rfl⟩
    obtain ⟨at1, h1, -, h2, h3⟩ := hi.typed r hr
    rw [hat] at h1; cases h1
    unfold Store.lookupAV
    cases hf : st.rows.find? (fun r' => r'.avet && decide (r'.a = r.a ∧ r'.v = r.v)) with
    | none =>
      have := List.find?_eq_none.mp hf r hr
      rw [h3, hx] at this; simp at this
    | some r' =>
      have hp := List.find?_some hf
      have hm := List.mem_of_find?_eq_some hf
      simp only [Bool.and_eq_true, decide_eq_true_eq] at hp
      obtain ⟨at2, k1, -, k2, -⟩ := hi.typed r' hm
      rw [hp.2.1, hat] at k1; cases k1
      rw [uniqueOk_av hi.uniq hm hr (k2.trans hu) (h2.trans hu) hp.2.1 hp.2.2]
      rfl

/-- C24: a tempid that asserts an identity some entity has denotes that entity.  The attribute must
be `:db/index true`: lookups go through the AVET index (db.rs:758), and an alteration can make an
attribute unique without indexing it (`C24_C25_fails`). -/
theorem C24_upserts_partial {db db' : Db} {now terms ids rep} (hr : ReachKept db)
    (h : transactTerms db now terms ids = .ok (db', rep)) :
    ∃ σ : TempIdMap, (∀ s n, AMap.get rep.tempids s = some n ↔ AMap.get σ (.external s) = some n) ∧
      ∀ t a v n at_, (⟨.add, .inr t, a, .inl v⟩ : TTerm) ∈ terms → db.schema.attr a = some at_ →
        at_.unique = some .identity → at_.index = true → Has db.store.rows n a v →
        AMap.get σ t = some n := by
  obtain ⟨T⟩ := transact_trace h
  obtain ⟨U, sp, -⟩ := T.terms_spec
  refine ⟨T.s3.tempids, ?_, ?_⟩
  · intro s n; rw [T.tempids]; exact ⟨get_external, get_external'⟩
  · intro t a v n at_ hx hat hu hix hh
    exact sp.sub _ _ (sp.upserts t a v n hx ⟨at_, hat, hu⟩
      ((lookupAV_iff (rowsInv_reach hr).1 hat (by rw [hu]; rfl) hix n).mpr hh))

/-- C25: a transaction whose identity assertions name two different existing entities for one
tempid fails, whatever else it contains. -/
theorem C25_conflict {db : Db} {now terms ids} (hr : ReachKept db) {t : TempId} {a a' n n' : Entid}
    {v v' : TypedValue} {at_ at_' : Attribute}
    (h1 : (⟨.add, .inr t, a, .inl v⟩ : TTerm) ∈ terms) (h2 : (⟨.add, .inr t, a', .inl v'⟩ : TTerm) ∈ terms)
    (ha : db.schema.attr a = some at_) (ha' : db.schema.attr a' = some at_')
    (hu : at_.unique = some .identity) (hu' : at_'.unique = some .identity)
    (hx : at_.index = true) (hx' : at_'.index = true)
    (hh : Has db.store.rows n a v) (hh' : Has db.store.rows n' a' v') (hne : n ≠ n') :
    ∀ db' rep, transactTerms db now terms ids ≠ .ok (db', rep) := by
  intro db' rep h
  obtain ⟨σ, -, hσ⟩ := C24_upserts_partial hr h
  have e1 := hσ t a v n at_ h1 ha hu hx hh
  have e2 := hσ t a' v' n' at_' h2 ha' hu' hx' hh'
  rw [e1] at e2
  exact hne (Option.some.inj e2)

/-- C25, general case: also when the value is itself a tempid, an accepted transaction makes the
tempid denote the entity that had the identity, unless the transaction takes the identity away
from that entity (`C25_fails_chain`). -/
theorem C25_conflict_partial {db db' : Db} {now terms ids rep} (hr : ReachKept db)
    (h : transactTerms db now terms ids = .ok (db', rep)) :
    ∃ σ : TempIdMap, (∀ s n, AMap.get rep.tempids s = some n ↔ AMap.get σ (.external s) = some n) ∧
      ∀ t a v w n at_, (⟨.add, .inr t, a, v⟩ : TTerm) ∈ terms → db.schema.attr a = some at_ →
        at_.unique = some .identity → at_.index = true → DenotesV σ v w → Has db.store.rows n a w →
        AMap.get σ t = some n ∨ ¬ Has db'.store.rows n a w := by
  obtain ⟨T⟩ := transact_trace h
  obtain ⟨U, sp, hsound, hcomplete⟩ := T.terms_spec
  refine ⟨T.s3.tempids, ?_, ?_⟩
  · intro s n; rw [T.tempids]; exact ⟨get_external, get_external'⟩
  · intro t a v w n at_ hx hat hu hix hdv hh
    have hi := (rowsInv_reach hr).1
    have hi' := rowsInv_apply hi (T.qok (rowsInv_reach hr).2) T.applied
    have huS : at_.unique.isSome := by rw [hu]; rfl
    have uniq : ∀ {rows}, RowsInv db.schema rows → ∀ {n n'}, Has rows n a w → Has rows n' a w → n = n' := by
      rintro rows hi n n' ⟨r, hr, rfl, rfl, rfl⟩ ⟨r', hr', rfl, ha, hv⟩
      obtain ⟨at1, k1, -, k2, -⟩ := hi.typed r hr
      obtain ⟨at2, k3, -, k4, -⟩ := hi.typed r' hr'
      rw [ha] at k3; rw [hat] at k1 k3; cases k1; cases k3
      rw [uniqueOk_av hi.uniq hr hr' (k2.trans huS) (k4.trans huS) ha.symm hv.symm]
    by_cases hn : Has db'.store.rows n a w
    · left
      rw [T.has_iff] at hn
      rcases hcomplete _ hx with ⟨y, hy, hd⟩ | ⟨-, -, t', n', v', he, ht, hv, hl, -⟩
      · obtain ⟨op, e, a', v'⟩ := y
        obtain ⟨d1, d2, d3, d4⟩ := hd
        simp only at d1 d2
        subst d1; subst d2
        have := hdv.unique d4
        subst this
        have hq : (⟨e, a', at_, w, true⟩ : Reduced) ∈ reducedOf db.schema T.t :=
          T.mem_queue.mpr ⟨hat, Or.inl ⟨rfl, Or.inl hy⟩⟩
        simp only [DenotesE] at d3
        rw [d3]
        congr 1
        by_cases hin : Inserts db.store.rows ⟨e, a', at_, w, true⟩
        · exact uniq hi' ⟨_, (T.mem_store _).mpr (Or.inr ⟨_, hq, hin, rfl⟩), rfl, rfl, rfl⟩ hn
        · have : ∃ r ∈ db.store.rows, Joins ⟨e, a', at_, w, true⟩ r ∧ w = r.v := by
            apply Classical.byContradiction
            intro hno
            apply hin
            refine ⟨rfl, ?_⟩
            by_cases hj : ∃ r ∈ db.store.rows, Joins ⟨e, a', at_, w, true⟩ r
            · obtain ⟨r, hr1, hr2⟩ := hj
              exact Or.inr ⟨r, hr1, hr2, fun he => hno ⟨r, hr1, hr2, he⟩⟩
            · exact Or.inl fun r hr1 hr2 => hj ⟨r, hr1, hr2⟩
          obtain ⟨r, hr1, hr2, hr3⟩ := this
          exact uniq hi ⟨r, hr1, hr2.1, hr2.2.1, hr3.symm⟩ hh
      · simp only [Sum.inr.injEq] at he
        subst he
        have := (hv.mono sp.sub).unique hdv
        subst this
        have hl' := (lookupAV_iff hi hat huS hix n).mpr hh
        rw [hl'] at hl
        rcases hl with hl | hl
        · rw [sp.sub _ _ ht, hl]
        · simp at hl
    · exact Or.inr hn

/-- `:x/one` becomes a unique identity without becoming indexed, and another entity gets a value
of it. -/
def unindexedTxs : List Tx :=
  [dataTx, ([addE xOne DB_UNIQUE (.ref DB_UNIQUE_IDENTITY)], []),
   ([addT "f" xOne (str "z")], [tid "f"])]

/-- Full C24 and C25 fail for an identity that is not indexed: `"t"` asserts `:x/id "k"` and
`:x/one "z"`, which belong to two different entities; the transaction is accepted, `"t"` is the
first, and the second assertion is silently dropped. -/
theorem C24_C25_fails : ∃ db db' rep t a a' v v' n n' terms, ReachKept db ∧ KnownTerms db terms ∧
    transactTerms db 0 terms [.external t] = .ok (db', rep) ∧
    (⟨.add, .inr (.external t), a, .inl v⟩ : TTerm) ∈ terms ∧ (⟨.add, .inr (.external t), a', .inl v'⟩ : TTerm) ∈ terms ∧
    IsIdentity db.schema a ∧ IsIdentity db.schema a' ∧ Has db.store.rows n a v ∧
    Has db.store.rows n' a' v' ∧ n ≠ n' ∧ AMap.get rep.tempids t = some n := by
  obtain ⟨db, h, hp⟩ := reachKept_of_setup (txs := unindexedTxs) (p := fun db =>
    decide (KnownTerms db [addT "t" xId (str "k"), addT "t" xOne (str "z")]) &&
    hasB db e1 xId (str "k") && hasB db 65540 xOne (str "z") &&
    ((db.schema.attr xId).any fun at_ => decide (at_.unique = some .identity)) &&
    ((db.schema.attr xOne).any fun at_ => decide (at_.unique = some .identity)) &&
    match transactTerms db 0 [addT "t" xId (str "k"), addT "t" xOne (str "z")] [tid "t"] with
    | .ok (_, rep) => decide (AMap.get rep.tempids "t".toList = some e1)
    | _ => false) (by decide +kernel)
  simp only [Bool.and_eq_true, decide_eq_true_eq, hasB_iff, Option.any_eq_true] at hp
  obtain ⟨⟨⟨⟨⟨hk, h1⟩, h2⟩, i1⟩, i2⟩, hp⟩ := hp
  split at hp
  · rename_i db' rep ht
    exact ⟨db, db', rep, "t".toList, xId, xOne, str "k", str "z", e1, 65540, _, h, hk, ht,
      by simp [addT, tid], by simp [addT, tid], i1, i2, h1, h2, by decide, by simpa using hp⟩
  · simp at hp

/-- `:x/r` (65539), a reference that is a unique identity; entities a (65540) with identity "x",
m (65542) with identity "m", n (65543) with `[n :x/r m]` and b (65541) with `[b :x/r n]`. -/
def chainTxs : List Tx :=
  [(installIdentity "r" DB_TYPE_REF, [tid "r"]),
   ([addT "a" xId (str "x"), addTT "b" 65539 "n", addT "m" xId (str "m"), addTT "n" 65539 "m"],
    [tid "a", tid "b", tid "m", tid "n"])]

def chainTerms : List TTerm :=
  [addT "t" xId (str "x"), addTT "t" 65539 "u", addTT "u" 65539 "w", addT "w" xId (str "m"),
   retE 65541 65539 (.ref 65543)]

/-- Full C25 fails through a chain of tempids: "t" is a by `:x/id "x"`, and b by `[b :x/r n]`, since
"u" is n; but "t" was resolved before "u", and the assertion is not checked again
(upsert_resolution.rs:175).  (b's own datom is retracted in the same transaction, so the unique
index does not catch it.) -/
theorem C25_fails_chain : ∃ db db' rep t u a v n n', ReachKept db ∧ KnownTerms db chainTerms ∧
    transactTerms db 0 chainTerms [.external t, .external u, tid "w"] = .ok (db', rep) ∧
    (⟨.add, .inr (.external t), a, .inr (.external u)⟩ : TTerm) ∈ chainTerms ∧ IsIdentity db.schema a ∧
    AMap.get rep.tempids u = some v ∧ Has db.store.rows n a (.ref v) ∧
    AMap.get rep.tempids t = some n' ∧ n' ≠ n := by
  obtain ⟨db, h, hp⟩ := reachKept_of_setup (txs := chainTxs) (p := fun db =>
    decide (KnownTerms db chainTerms) && hasB db 65541 65539 (.ref 65543) &&
    ((db.schema.attr 65539).any fun at_ => decide (at_.unique = some .identity)) &&
    match transactTerms db 0 chainTerms [tid "t", tid "u", tid "w"] with
    | .ok (_, rep) => decide (AMap.get rep.tempids "t".toList = some 65540) &&
        decide (AMap.get rep.tempids "u".toList = some 65543)
    | _ => false) (by decide +kernel)
  simp only [Bool.and_eq_true, decide_eq_true_eq, hasB_iff, Option.any_eq_true] at hp
  obtain ⟨⟨⟨hk, h1⟩, i1⟩, hp⟩ := hp
  split at hp
  · rename_i db' rep ht
    simp only [Bool.and_eq_true, decide_eq_true_eq] at hp
    exact ⟨db, db', rep, "t".toList, "u".toList, 65539, 65543, 65541, 65540, h, hk, ht,
      by simp [chainTerms, addTT, tid], i1, hp.2, h1, hp.1, by decide⟩
  · simp at hp

/-! ### C26 -/

/-- Both tempids assert `[a w]` for one unique identity `a`, and neither upserts (is in `U`). -/
def SameIdentity (s : Schema) (terms : List TTerm) (σ U : TempIdMap) (t t' : TempId) : Prop :=
  ∃ a v v' w, IsIdentity s a ∧ (⟨.add, .inr t, a, v⟩ : TTerm) ∈ terms ∧
    (⟨.add, .inr t', a, v'⟩ : TTerm) ∈ terms ∧ DenotesV σ v w ∧ DenotesV σ v' w ∧
    AMap.get U t = none ∧ AMap.get U t' = none

/-- C26: in an accepted transaction the tempids fall into those that upsert (`U`), each for a reason
(`Upserts`), and the others.  The others get entids that were never handed out before, and two of
them get the same one iff they are linked through asserting a common identity. -/
theorem C26_fresh {db db' : Db} {now terms ids rep} (hr : Reach db)
    (h : transactTerms db now terms ids = .ok (db', rep)) :
    ∃ σ U : TempIdMap,
      (∀ s n, AMap.get rep.tempids s = some n ↔ AMap.get σ (.external s) = some n) ∧
      (∀ t n, AMap.get U t = some n → AMap.get σ t = some n ∧ Upserts db.schema db.store.rows terms t n) ∧
      (∀ t n, AMap.get σ t = some n → AMap.get U t = none →
        db.parts.containsEntid n = false ∧ (∀ l ∈ db.store.log, l.e ≠ n) ∧
        db'.parts.containsEntid n = true ∧ n ≠ rep.txId) ∧
      (∀ t t' n n', AMap.get σ t = some n → AMap.get σ t' = some n' → AMap.get U t = none →
        AMap.get U t' = none → (n = n' ↔ Linked (SameIdentity db.schema terms σ U) t t')) := by
  have hi := histInv_reach hr
  obtain ⟨T⟩ := transact_trace h
  obtain ⟨U, sp, hsound, hcomplete⟩ := T.terms_spec
  obtain ⟨u1, u2, u3, u4⟩ := hi.parts.user
  obtain ⟨x1, x2, x3, x4⟩ := hi.parts.tx
  obtain ⟨b1, b2, b3, b4⟩ := hi.parts.db
  obtain ⟨v1, v2, v3, v4⟩ := sp.user (by omega)
  have fresh : ∀ t n, AMap.get T.s3.tempids t = some n → AMap.get U t = none →
      db.parts.containsEntid n = false := by
    intro t n ht hu
    obtain ⟨f1, f2⟩ := sp.fresh t n ht hu
    simp only [Parts.containsEntid, Partition.containsEntid, Bool.or_eq_false_iff,
      decide_eq_false_iff_not]
    have : USER0 = 65536 := rfl
    have : TX0 = 268435456 := rfl
    omega
  refine ⟨T.s3.tempids, U, ?_, ?_, ?_, ?_⟩
  · intro s n; rw [T.tempids]; exact ⟨get_external, get_external'⟩
  · intro t n hu; exact ⟨sp.sub _ _ hu, sp.why t n hu⟩
  · intro t n ht hu
    have hf := fresh t n ht hu
    obtain ⟨f1, f2⟩ := sp.fresh t n ht hu
    refine ⟨hf, ?_, ?_, ?_⟩
    · intro l hl he
      have := hi.logE l hl
      rw [he, hf] at this; simp at this
    · rw [T.parts]
      simp only [Parts.containsEntid, Partition.containsEntid, Bool.or_eq_true, decide_eq_true_eq]
      left; right; omega
    · rw [T.txid.1]
      have : TX0 = 268435456 := rfl
      omega
  · intro t t' n n' ht ht' hu hu'
    constructor
    · intro he
      refine ((sp.merged t n t' n' ht ht' hu hu').mp he).mono ?_
      rintro x y ⟨a, v, v', hid, hx, hy, hv, hxu, hyu⟩
      have hden : ∀ v, (∃ t, (⟨.add, .inr t, a, v⟩ : TTerm) ∈ terms) → ∃ w, DenotesV T.s3.tempids v w := by
        rintro v ⟨t, hx⟩
        rcases hcomplete _ hx with ⟨y, -, hy⟩ | ⟨-, -, t, n, v, he, ht, hv, -⟩
        · exact ⟨_, hy.2.2.2⟩
        · exact ⟨_, hv.mono sp.sub⟩
      obtain ⟨w, hw⟩ := hden v ⟨_, hx⟩
      have trans : ∀ {v v'}, valueUnder U v = valueUnder U v' → ∀ {w}, DenotesV T.s3.tempids v w →
          DenotesV T.s3.tempids v' w := by
        intro v v' hv w hw
        have under : ∀ v w, DenotesV T.s3.tempids v w ↔ DenotesV T.s3.tempids (valueUnder U v) w := by
          intro v w
          cases v with
          | inl v => exact Iff.rfl
          | inr t =>
            cases hg : AMap.get U t with
            | none => simp only [valueUnder, hg]
            | some k =>
              simp only [valueUnder, hg, DenotesV, sp.sub _ _ hg, Option.some.injEq,
                exists_eq_left']
        rw [under] at hw ⊢
        rw [← hv]; exact hw
      exact .step ⟨a, v, v', w, hid, hx, hy, hw, trans hv hw, hxu, hyu⟩
    · intro hl
      have ext : ∀ x y, Linked (SameIdentity db.schema terms T.s3.tempids U) x y →
          AMap.get T.s3.tempids x = AMap.get T.s3.tempids y := by
        intro x y hl
        induction hl with
        | refl x => rfl
        | symm _ ih => exact ih.symm
        | trans _ _ ih1 ih2 => exact ih1.trans ih2
        | step hs =>
          rename_i x y
          obtain ⟨a, v, v', w, ⟨at_, hat, hid⟩, hx, hy, hw, hw', hxu, hyu⟩ := hs
          have huS : at_.unique.isSome := by rw [hid]; rfl
          have key : ∀ x v, (⟨.add, .inr x, a, v⟩ : TTerm) ∈ terms → DenotesV T.s3.tempids v w →
              AMap.get U x = none → ∃ n, AMap.get T.s3.tempids x = some n ∧
                newRow rep.txId ⟨n, a, at_, w, true⟩ ∈ T.store.rows := by
            intro x v hx hw hxu
            rcases hcomplete _ hx with ⟨y, hy, hd⟩ | ⟨-, -, t', n', v', he, ht, -⟩
            · obtain ⟨op, e, a', w'⟩ := y
              obtain ⟨d1, d2, d3, d4⟩ := hd
              simp only at d1 d2
              subst d1; subst d2
              have := hw.unique d4
              subst this
              simp only [DenotesE] at d3
              refine ⟨e, d3, (T.mem_store _).mpr (Or.inr ⟨⟨e, a', at_, w, true⟩,
                T.mem_queue.mpr ⟨hat, Or.inl ⟨rfl, Or.inl hy⟩⟩, ⟨rfl, Or.inl ?_⟩, rfl⟩)⟩
              rintro r hr ⟨hre, -, -⟩
              obtain ⟨l, hl, hle, -⟩ := has_rows_log hi.replay ⟨r, hr, rfl, rfl, rfl⟩
              have := hi.logE l hl
              rw [hle, hre, fresh x e d3 hxu] at this
              simp at this
            · simp only [Sum.inr.injEq] at he
              subst he
              rw [hxu] at ht; simp at ht
          obtain ⟨n1, g1, r1⟩ := key x v hx hw hxu
          obtain ⟨n2, g2, r2⟩ := key y v' hy hw' hyu
          have := uniqueOk_av (apply_ok T.applied).2.1 r1 r2 huS huS rfl rfl
          simp only [newRow, Row.mk.injEq] at this
          rw [g1, g2, this.1]
      have := ext t t' hl
      rw [ht, ht'] at this
      exact Option.some.inj this

/-! ### C27 -/

/-- C27: nothing invented is `C23_one_entity`.  Nothing lost: every input assertion holds
afterwards, except when its tempid upserted and the assertion is itself an identity, or when the
same transaction also retracts from that entity and cardinality-one attribute; the exceptions are
real (`C20_fails`, `C20_fails_upsert`).  A dropped identity assertion is never one that
contradicts the store: the value was not anybody else's. -/
theorem C27_nothing_lost_partial {db db' : Db} {now terms ids rep} (hr : ReachKept db)
    (h : transactTerms db now terms ids = .ok (db', rep)) :
    ∃ σ : TempIdMap, (∀ s n, AMap.get rep.tempids s = some n ↔ AMap.get σ (.external s) = some n) ∧
      ∀ x ∈ terms, x.op = .add → ∃ y, Denotes σ x y ∧ (Has db'.store.rows y.e y.a y.v ∨
        (∃ t, x.e = .inr t ∧ IsIdentity db.schema x.a ∧ Upserted db σ t ∧
          ∀ at_, db.schema.attr x.a = some at_ → at_.index = true →
            ∀ n, Has db.store.rows n x.a y.v → n = y.e) ∨
        (∃ at_, db.schema.attr y.a = some at_ ∧ at_.multival = false ∧
          ∃ x' ∈ terms, ∃ y', Denotes σ x' y' ∧ y'.op = .retract ∧ y'.e = y.e ∧ y'.a = y.a)) := by
  obtain ⟨T⟩ := transact_trace h
  obtain ⟨U, sp, hsound, hcomplete⟩ := T.terms_spec
  refine ⟨T.s3.tempids, ?_, ?_⟩
  · intro s n; rw [T.tempids]; exact ⟨get_external, get_external'⟩
  · intro x hx hop
    rcases hcomplete x hx with ⟨y, hy, hd⟩ | ⟨-, hid, t, n, v, he, ht, hv, hlk, a', v', hl⟩
    · refine ⟨y, hd, ?_⟩
      obtain ⟨at_, hat⟩ := Option.isSome_iff_exists.mp (T.t0Spec.attrs y hy)
      obtain ⟨op, e, a, v⟩ := y
      have ho : op = .add := hd.1.trans hop
      subst ho
      by_cases hno : at_.multival = false ∧ ∃ q' ∈ reducedOf db.schema T.t, q'.added = false ∧ q'.e = e ∧ q'.a = a
      · obtain ⟨hm, q', hq', ha', he', hae'⟩ := hno
        right; right
        refine ⟨at_, hat, hm, ?_⟩
        rcases (T.mem_queue.mp hq').2 with ⟨hadd, -⟩ | ⟨-, hmem⟩
        · rw [ha'] at hadd; simp at hadd
        · obtain ⟨x', hx', hd''⟩ := hsound _ hmem
          exact ⟨x', hx', _, hd'', rfl, he', hae'⟩
      · left
        refine T.added_present (q := ⟨e, a, at_, v, true⟩)
          (T.mem_queue.mpr ⟨hat, Or.inl ⟨rfl, Or.inl hy⟩⟩) rfl ?_
        intro hm q' hq' ha' hee
        exact hno ⟨hm, q', hq', ha', hee⟩
    · refine ⟨⟨x.op, n, x.a, v⟩, ⟨rfl, rfl, by rw [he]; exact sp.sub _ _ ht, hv.mono sp.sub⟩, ?_⟩
      right; left
      obtain ⟨r, hr', hre, hra, hrv⟩ := lookupAV_some hl
      refine ⟨t, he, hid, ⟨n, r.a, r.v, sp.sub _ _ ht, r, hr', hre, rfl, rfl⟩, ?_⟩
      intro at_ hat hix k hk
      obtain ⟨at2, hat2, hu⟩ := hid
      rw [hat] at hat2; cases hat2
      have := (lookupAV_iff (rowsInv_reach hr).1 hat (by rw [hu]; rfl) hix k).mpr hk
      rw [this] at hlk
      rcases hlk with h | h
      · exact Option.some.inj h
      · simp at h

end Mentat
