import Verif.Proofs.Effect
import Verif.Proofs.Examples
/-
C13-C20: what every history of transactions guarantees about the datoms and the log.

`Reach db`: `db` results from a fresh store by any number of successful transactions and reopenings.
`ReachKept db`: the same within one session, where no transaction removes the definition of an
attribute that still has datoms (see `C13_fails`).
-/
namespace Mentat

/-- The running example is such a history. -/
theorem reachKept_example : ∃ db, ReachKept db ∧ Has db.store.rows e1 xOne (str "b") ∧
    Has db.store.rows e1 xMany (.long 2) ∧ Has db.store.rows e1 xMany (.long 3) ∧
    ¬ Has db.store.rows e1 xMany (.long 1) := by
  obtain ⟨db, h, hp⟩ := reachKept_of_setup (txs := [dataTx, changeTx]) (p := fun db =>
    hasB db e1 xOne (str "b") && hasB db e1 xMany (.long 2) && hasB db e1 xMany (.long 3) &&
    !hasB db e1 xMany (.long 1)) (by decide +kernel)
  simp only [Bool.and_eq_true, Bool.not_eq_true', hasB_iff] at hp
  refine ⟨db, h, hp.1.1.1, hp.1.1.2, hp.1.2, ?_⟩
  rw [← hasB_iff, hp.2]; simp

/-- And so is a transaction on it, with a new tempid, an upserting tempid, a retraction and
assertions that are already true. -/
theorem transact_example : ∃ db db' rep, ReachKept db ∧ KnownTerms db changeTx.1 ∧
    transactTerms db 0 changeTx.1 changeTx.2 = .ok (db', rep) ∧ AMap.get rep.tempids "u".toList = some e1 := by
  obtain ⟨db, h, hp⟩ := reachKept_of_setup (txs := [dataTx]) (p := fun db =>
    decide (KnownTerms db changeTx.1) &&
    match transactTerms db 0 changeTx.1 changeTx.2 with
    | .ok (_, rep) => decide (AMap.get rep.tempids "u".toList = some e1)
    | _ => false) (by decide +kernel)
  simp only [Bool.and_eq_true, decide_eq_true_eq] at hp
  obtain ⟨hk, hp⟩ := hp
  split at hp
  · rename_i db' rep ht
    exact ⟨db, db', rep, h, hk, ht, by simpa using hp⟩
  · simp at hp

/-! ### C13 -/

/-- Every datom's value has the type its attribute declares. -/
def TypedStore (db : Db) : Prop :=
  ∀ r ∈ db.store.rows, ∃ at_, db.schema.attr r.a = some at_ ∧ r.v.valueType = at_.valueType

/-- C13, for histories that do not undefine an attribute in use.  Missing for the full property:
histories that do (`C13_fails`), and reopening in between. -/
theorem C13_typed_partial {db : Db} (h : ReachKept db) : TypedStore db := by
  intro r hr
  obtain ⟨at_, h1, h2, -⟩ := (rowsInv_reach h).1.typed r hr
  exact ⟨at_, h1, h2.symm⟩

/-- Removing `:x/one` (retracting ident, type and cardinality), then defining it again at the same
entid with another type. -/
def redefineTxs (vt card : Entid) (a : Entid) (name : String) (vt' card' : Entid) : List Tx :=
  [([retE a DB_IDENT (.keyword (kw "x" name)), retE a DB_VALUE_TYPE (.ref vt),
     retE a DB_CARDINALITY (.ref card)], []),
   ([addE a DB_IDENT (.keyword (kw "x" name)), addE a DB_VALUE_TYPE (.ref vt'),
     addE a DB_CARDINALITY (.ref card')], [])]

/-- The full property does not hold: the code lets a user remove an attribute that has datoms
(metadata.rs:97-156 checks only the schema datoms) and install it again with another type. -/
theorem C13_fails : ∃ db, Reach db ∧ ¬ TypedStore db := by
  obtain ⟨db, h, hp⟩ := reach_of_setup
    (txs := dataTx :: redefineTxs DB_TYPE_STRING DB_CARDINALITY_ONE xOne "one" DB_TYPE_LONG DB_CARDINALITY_ONE)
    (p := fun db => db.store.rows.any fun r => match db.schema.attr r.a with
      | some at_ => decide (r.v.valueType ≠ at_.valueType)
      | none => false) (by decide +kernel)
  refine ⟨db, h, ?_⟩
  intro ht
  obtain ⟨r, hr, hb⟩ := List.any_eq_true.mp hp
  obtain ⟨at_, h1, h2⟩ := ht r hr
  rw [h1] at hb
  simp only [decide_eq_true_eq] at hb
  exact hb h2

/-! ### C14 -/

/-- An entity has at most one value for a cardinality-one attribute. -/
def CardinalityOne (db : Db) : Prop :=
  ∀ e a v v' at_, db.schema.attr a = some at_ → at_.multival = false →
    Has db.store.rows e a v → Has db.store.rows e a v' → v = v'

/-- C14, for histories that do not undefine an attribute in use. -/
theorem C14_one_partial {db : Db} (h : ReachKept db) : CardinalityOne db := by
  rintro e a v v' at_ hat hm ⟨r, hr, rfl, rfl, rfl⟩ ⟨r', hr', he, ha, rfl⟩
  rw [(rowsInv_reach h).1.one r hr r' hr' at_ hat hm he.symm ha.symm]

theorem C14_fails : ∃ db, Reach db ∧ ¬ CardinalityOne db := by
  obtain ⟨db, h, hp⟩ := reach_of_setup
    (txs := dataTx :: redefineTxs DB_TYPE_LONG DB_CARDINALITY_MANY xMany "many" DB_TYPE_LONG DB_CARDINALITY_ONE)
    (p := fun db => hasB db e1 xMany (.long 1) && hasB db e1 xMany (.long 2) &&
      (db.schema.attr xMany).any fun at_ => !at_.multival) (by decide +kernel)
  simp only [Bool.and_eq_true, hasB_iff, Option.any_eq_true, Bool.not_eq_true'] at hp
  obtain ⟨⟨h1, h2⟩, at_, hat, hm⟩ := hp
  refine ⟨db, h, fun hc => ?_⟩
  have := hc e1 xMany _ _ at_ hat hm h1 h2
  simp at this

/-! ### C15 -/

/-- At most one entity has a given value of a unique attribute. -/
def UniqueValues (db : Db) : Prop :=
  ∀ e e' a v at_, db.schema.attr a = some at_ → at_.unique.isSome →
    Has db.store.rows e a v → Has db.store.rows e' a v → e = e'

/-- C15, for histories that do not undefine an attribute in use. -/
theorem C15_unique_partial {db : Db} (h : ReachKept db) : UniqueValues db := by
  rintro e e' a v at_ hat hu ⟨r, hr, rfl, rfl, rfl⟩ ⟨r', hr', rfl, ha, hv⟩
  have hi := (rowsInv_reach h).1
  obtain ⟨at1, h1, -, h2, -⟩ := hi.typed r hr
  obtain ⟨at2, h3, -, h4, -⟩ := hi.typed r' hr'
  rw [ha] at h3
  rw [hat] at h1 h3
  cases h1; cases h3
  rw [uniqueOk_av hi.uniq hr hr' (h2.trans hu) (h4.trans hu) ha.symm hv.symm]

theorem C15_fails : ∃ db, Reach db ∧ ¬ UniqueValues db := by
  obtain ⟨db, h, hp⟩ := reach_of_setup
    (txs := dataTx :: ([addT "f" xOne (str "a")], [tid "f"]) ::
      (redefineTxs DB_TYPE_STRING DB_CARDINALITY_ONE xOne "one" DB_TYPE_STRING DB_CARDINALITY_ONE).map
        fun t => if t.1.any (fun x => decide (x.op = .add)) then
          (t.1 ++ [addE xOne DB_UNIQUE (.ref DB_UNIQUE_VALUE), addE xOne DB_INDEX (.boolean true)], t.2) else t)
    (p := fun db => hasB db e1 xOne (str "a") && hasB db 65540 xOne (str "a") &&
      (db.schema.attr xOne).any fun at_ => at_.unique.isSome) (by decide +kernel)
  simp only [Bool.and_eq_true, hasB_iff, Option.any_eq_true] at hp
  obtain ⟨⟨h1, h2⟩, at_, hat, hu⟩ := hp
  refine ⟨db, h, fun hc => ?_⟩
  have := hc e1 65540 xOne _ at_ hat hu h1 h2
  simp [e1] at this

/-! ### C16 -/

/-- `l` is the last log row about the datom (e, a, v). -/
def LastAbout (log : List LogRow) (e a : Entid) (v : TypedValue) (l : LogRow) : Prop :=
  ∃ before after, log = before ++ l :: after ∧ (l.e = e ∧ l.a = a ∧ l.v = v) ∧
    ∀ l' ∈ after, ¬ (l'.e = e ∧ l'.a = a ∧ l'.v = v)

theorem lastEntry_iff {log : List LogRow} {e a v l} :
    lastEntry log e a v = some l ↔ LastAbout log e a v l := by
  constructor
  · induction log with
    | nil => simp [lastEntry]
    | cons x r ih =>
      intro h
      rw [show x :: r = [x] ++ r from rfl, lastEntry_append] at h
      cases hr : lastEntry r e a v with
      | some y =>
        rw [hr] at h
        simp only [Option.some_or, Option.some.injEq] at h
        subst h
        obtain ⟨b, c, h1, h2, h3⟩ := ih hr
        exact ⟨x :: b, c, by rw [h1]; rfl, h2, h3⟩
      | none =>
        rw [hr] at h
        simp only [Option.none_or] at h
        have hx : x = l ∧ (x.e = e ∧ x.a = a ∧ x.v = v) := by
          unfold lastEntry at h
          simp only [List.filter_cons, List.filter_nil] at h
          split at h
          · rename_i hc
            simp only [List.getLast?_singleton, Option.some.injEq] at h
            exact ⟨h, by simpa using hc⟩
          · simp at h
        refine ⟨[], r, by rw [hx.1]; rfl, hx.1 ▸ hx.2, ?_⟩
        intro l' hl' hl
        obtain ⟨y, -, -, hy⟩ := lastEntry_some hl' hl
        rw [hr] at hy; simp at hy
  · rintro ⟨b, c, rfl, h1, h2⟩
    rw [show b ++ l :: c = b ++ ([l] ++ c) from rfl, lastEntry_append, lastEntry_append,
      lastEntry_none h2]
    have : lastEntry [l] e a v = some l := by
      unfold lastEntry
      simp [h1]
    rw [this]; rfl

/-- C16: in every reachable store a datom is present, with transaction `tx`, iff the last log row
about it is an addition made by `tx`. -/
theorem C16_replay {db : Db} (h : Reach db) (e a : Entid) (v : TypedValue) (tx : Entid) :
    (∃ r ∈ db.store.rows, r.e = e ∧ r.a = a ∧ r.v = v ∧ r.tx = tx) ↔
      ∃ l, LastAbout db.store.log e a v l ∧ l.added = true ∧ l.tx = tx := by
  rw [(histInv_reach h).replay e a v tx]
  simp only [lastEntry_iff]

/-- C16: no datom is stored twice. -/
theorem C16_once {db : Db} (h : Reach db) {r r' : Row} (hr : r ∈ db.store.rows)
    (hr' : r' ∈ db.store.rows) (he : r.e = r'.e) (ha : r.a = r'.a) (hv : r.v = r'.v) : r = r' :=
  uniqueOk_eav (histInv_reach h).uniq hr hr' he ha hv

/-! ### C17 -/

/-- C17: an accepted transaction appends to the log exactly the net change of the datoms, each
change once. -/
theorem C17_net_change {db db' : Db} {now terms ids rep} (hr : Reach db)
    (h : transactTerms db now terms ids = .ok (db', rep)) :
    ∃ new, db'.store.log = db.store.log ++ new ∧ new.Nodup ∧
      ∀ l, l ∈ new ↔ l.tx = rep.txId ∧ l.timeline = 0 ∧
        ((l.added = true ∧ ¬ Has db.store.rows l.e l.a l.v ∧ Has db'.store.rows l.e l.a l.v) ∨
         (l.added = false ∧ Has db.store.rows l.e l.a l.v ∧ ¬ Has db'.store.rows l.e l.a l.v)) := by
  obtain ⟨T⟩ := transact_trace h
  have hs := applySpec (histInv_reach hr).uniq T.applied
  obtain ⟨-, -, -, -, -, hlog, -⟩ := apply_ok T.applied
  refine ⟨T.lr, by rw [T.log, hlog rfl], hs.nodup, ?_⟩
  intro l
  rw [T.has_iff]
  constructor
  · intro hl
    obtain ⟨h1, h2⟩ := hs.stamp l hl
    refine ⟨h1, h2, ?_⟩
    cases ha : l.added with
    | true => exact Or.inl ⟨rfl, (hs.added l hl ha).2, (hs.added l hl ha).1⟩
    | false => exact Or.inr ⟨rfl, (hs.retracted l hl ha).1, (hs.retracted l hl ha).2⟩
  · rintro ⟨h1, h2, h3⟩
    obtain ⟨e, a, v, tx, added, timeline⟩ := l
    simp only at h1 h2 h3
    subst h1; subst h2
    rcases h3 with ⟨rfl, h3, h4⟩ | ⟨rfl, h3, h4⟩
    · exact hs.addedAll e a v h4 h3
    · exact hs.retractedAll e a v h3 h4

/-! ### C18 -/

/-- C18: an accepted transaction's id is greater than every earlier one, all its log rows carry
it, and it stamps itself with exactly one `:db/txInstant`, the one reported. -/
theorem C18_tx_ids {db db' : Db} {now terms ids rep} (hr : Reach db) (hk : KnownTerms db terms)
    (h : transactTerms db now terms ids = .ok (db', rep)) :
    (∀ l ∈ db.store.log, l.tx < rep.txId) ∧
    ∃ new, db'.store.log = db.store.log ++ new ∧ (∀ l ∈ new, l.tx = rep.txId) ∧
      (⟨rep.txId, DB_TX_INSTANT, .instant rep.txInstant, rep.txId, true, 0⟩ : LogRow) ∈ new ∧
      ∀ l ∈ new, l.e = rep.txId → l.a = DB_TX_INSTANT →
        l = ⟨rep.txId, DB_TX_INSTANT, .instant rep.txInstant, rep.txId, true, 0⟩ := by
  have hi := histInv_reach hr
  have hi' := histInv_step hi hk h
  obtain ⟨T⟩ := transact_trace h
  have hs := applySpec hi.uniq T.applied
  obtain ⟨-, -, hlr, -, -, hlog, -⟩ := apply_ok T.applied
  have hlog : db'.store.log = db.store.log ++ T.lr := by rw [T.log, hlog rfl]
  obtain ⟨t1, t2, t3⟩ := T.txid
  obtain ⟨x1, x2, x3, x4⟩ := hi.parts.tx
  have hmem : (⟨rep.txId, DB_TX_INSTANT, .instant rep.txInstant, rep.txId, true, 0⟩ : LogRow) ∈ T.lr := by
    obtain ⟨at_, hat⟩ := Option.isSome_iff_exists.mp T.tSpec.attr
    rw [hlr, mem_logRowsOf]
    refine Or.inl ⟨⟨rep.txId, DB_TX_INSTANT, at_, .instant rep.txInstant, true⟩,
      T.mem_queue.mpr ⟨hat, Or.inl ⟨rfl, Or.inr ⟨rfl, rfl, rfl⟩⟩⟩, ⟨rfl, Or.inl ?_⟩, rfl⟩
    rintro r hr ⟨he, -, -⟩
    exact hi.no_datom_of_next r.a r.v ⟨r, hr, he.trans t1, rfl, rfl⟩
  refine ⟨?_, T.lr, hlog, fun l hl => (hs.stamp l hl).1, hmem, ?_⟩
  · intro l hl; rw [t1]; exact (hi.logTx l hl).2.1
  · intro l hl he ha
    obtain ⟨i, -, honly⟩ := hi'.instants rep.txId (by omega) (by
      have : db'.parts.tx.next = db.parts.tx.next + 1 := by rw [T.parts, t2]
      omega)
    rw [hlog] at honly
    have h1 := honly _ (List.mem_append_right _ hl) (hs.stamp l hl).1 he ha
    have h2 := honly _ (List.mem_append_right _ hmem) rfl rfl rfl
    rw [h1, h2]

/-- C18: over a whole history, the log is sorted by transaction, and every transaction id handed
out so far has exactly one `:db/txInstant` row. -/
theorem C18_log {db : Db} (h : Reach db) :
    db.store.log.Pairwise (fun l l' => l.tx ≤ l'.tx) ∧
    ∀ l ∈ db.store.log, ∃ i, (⟨l.tx, DB_TX_INSTANT, .instant i, l.tx, true, 0⟩ : LogRow) ∈ db.store.log ∧
      ∀ l' ∈ db.store.log, l'.tx = l.tx → l'.e = l.tx → l'.a = DB_TX_INSTANT →
        l' = ⟨l.tx, DB_TX_INSTANT, .instant i, l.tx, true, 0⟩ := by
  have hi := histInv_reach h
  refine ⟨hi.sorted, ?_⟩
  intro l hl
  obtain ⟨h1, h2, -⟩ := hi.logTx l hl
  exact hi.instants l.tx h1 h2

/-! ### C19, C20

`σ` is the assignment of entities to tempids that the transaction made; `Denotes σ x y` says the
input term `x` stands for the assertion or retraction `y`. -/

/-- C19: if all a transaction says about an entity and attribute is already true, then nothing
about them changes and nothing about them is logged.  (The transaction's own
`:db/txInstant` is excepted.) -/
theorem C19_reassert {db db' : Db} {now terms ids rep} (hr : Reach db)
    (h : transactTerms db now terms ids = .ok (db', rep)) :
    ∃ σ : TempIdMap, (∀ s n, AMap.get rep.tempids s = some n ↔ AMap.get σ (.external s) = some n) ∧
      ∀ e a, ¬ (e = rep.txId ∧ a = DB_TX_INSTANT) →
        (∀ x ∈ terms, ∀ y, Denotes σ x y → y.e = e → y.a = a →
          y.op = .add ∧ Has db.store.rows e a y.v) →
        (∀ v, Has db'.store.rows e a v ↔ Has db.store.rows e a v) ∧
        ∀ l ∈ db'.store.log, l.e = e → l.a = a → l ∈ db.store.log := by
  obtain ⟨T⟩ := transact_trace h
  obtain ⟨U, -, hsound, -⟩ := T.terms_spec
  refine ⟨T.s3.tempids, ?_, ?_⟩
  · intro s n; rw [T.tempids]; exact ⟨get_external, get_external'⟩
  · intro e a hne hall
    have hun := T.unchanged (e := e) (a := a) (by
      intro q hq he ha
      rcases (T.mem_queue.mp hq).2 with ⟨hadd, hm | ⟨h1, h2, -⟩⟩ | ⟨hadd, hm⟩
      · obtain ⟨x, hx, hd⟩ := hsound _ hm
        exact ⟨hadd, (hall x hx _ hd he ha).2⟩
      · exact absurd ⟨he.symm.trans h2, ha.symm.trans h1⟩ hne
      · obtain ⟨x, hx, hd⟩ := hsound _ hm
        have := (hall x hx _ hd he ha).1
        simp at this)
    refine ⟨hun, ?_⟩
    intro l hl he ha
    obtain ⟨new, hlog, -, hnew⟩ := C17_net_change hr h
    rw [hlog, List.mem_append] at hl
    rcases hl with hl | hl
    · exact hl
    · obtain ⟨-, -, hc⟩ := (hnew l).mp hl
      rw [he, ha, hun] at hc
      rcases hc with ⟨-, h1, h2⟩ | ⟨-, h1, h2⟩
      · exact absurd h2 h1
      · exact absurd h1 h2

/-- A tempid denotes an entity found in the store (as opposed to a new one). -/
def Upserted (db : Db) (σ : TempIdMap) (t : TempId) : Prop :=
  ∃ n a v, AMap.get σ t = some n ∧ Has db.store.rows n a v

/-- C20: what was retracted is absent; what is not mentioned is untouched; what was asserted is
present, except (the code violates the property, see `C20_fails`, `C20_fails_upsert`)
* an identity assertion on a tempid that upserted to an existing entity;
* an assertion about an entity and cardinality-one attribute from which the same transaction also
  retracts. -/
theorem C20_effect_partial {db db' : Db} {now terms ids rep}
    (h : transactTerms db now terms ids = .ok (db', rep)) :
    ∃ σ : TempIdMap, (∀ s n, AMap.get rep.tempids s = some n ↔ AMap.get σ (.external s) = some n) ∧
      (∀ x ∈ terms, ∃ y, Denotes σ x y) ∧
      (∀ x ∈ terms, ∀ y, Denotes σ x y → y.op = .retract → ¬ Has db'.store.rows y.e y.a y.v) ∧
      (∀ x ∈ terms, ∀ y, Denotes σ x y → y.op = .add →
        (∀ t, x.e = .inr t → IsIdentity db.schema x.a → ¬ Upserted db σ t) →
        (∀ at_, db.schema.attr y.a = some at_ → at_.multival = false →
          ∀ x' ∈ terms, ∀ y', Denotes σ x' y' → y'.op = .retract → ¬ (y'.e = y.e ∧ y'.a = y.a)) →
        Has db'.store.rows y.e y.a y.v) ∧
      (∀ e a, ¬ (e = rep.txId ∧ a = DB_TX_INSTANT) →
        (∀ x ∈ terms, ∀ y, Denotes σ x y → ¬ (y.e = e ∧ y.a = a)) →
        ∀ v, Has db'.store.rows e a v ↔ Has db.store.rows e a v) := by
  obtain ⟨T⟩ := transact_trace h
  obtain ⟨U, sp, hsound, hcomplete⟩ := T.terms_spec
  have hattr : ∀ y ∈ T.s3.terms, ∃ at_, db.schema.attr y.a = some at_ := fun y hy =>
    Option.isSome_iff_exists.mp (T.t0Spec.attrs y hy)
  refine ⟨T.s3.tempids, ?_, ?_, ?_, ?_, ?_⟩
  · intro s n; rw [T.tempids]; exact ⟨get_external, get_external'⟩
  · intro x hx
    rcases hcomplete x hx with ⟨y, -, hy⟩ | ⟨-, -, t, n, v, he, ht, hv, -⟩
    · exact ⟨y, hy⟩
    · exact ⟨⟨x.op, n, x.a, v⟩, rfl, rfl, by rw [he]; exact sp.sub _ _ ht, hv.mono sp.sub⟩
  · intro x hx y hd hop
    rcases hcomplete x hx with ⟨y', hy', hd'⟩ | ⟨ho, -⟩
    · have := hd.unique hd'
      subst this
      obtain ⟨at_, hat⟩ := hattr y hy'
      obtain ⟨op, e, a, v⟩ := y
      simp only at hop hat
      subst hop
      exact T.retracted_absent (q := ⟨e, a, at_, v, false⟩)
        (T.mem_queue.mpr ⟨hat, Or.inr ⟨rfl, hy'⟩⟩) rfl
    · rw [hd.1, ho] at hop; simp at hop
  · intro x hx y hd hop hnu hnr
    rcases hcomplete x hx with ⟨y', hy', hd'⟩ | ⟨-, hid, t, n, v, he, ht, hv, -, a', v', hl⟩
    · have := hd.unique hd'
      subst this
      obtain ⟨at_, hat⟩ := hattr y hy'
      obtain ⟨op, e, a, v⟩ := y
      simp only at hop hat hnr
      subst hop
      refine T.added_present (q := ⟨e, a, at_, v, true⟩)
        (T.mem_queue.mpr ⟨hat, Or.inl ⟨rfl, Or.inl hy'⟩⟩) rfl ?_
      intro hm q' hq' ha' ⟨he', hae'⟩
      rcases (T.mem_queue.mp hq').2 with ⟨hadd, -⟩ | ⟨-, hmem⟩
      · rw [ha'] at hadd; simp at hadd
      · obtain ⟨x', hx', hd''⟩ := hsound _ hmem
        exact hnr at_ hat hm x' hx' _ hd'' rfl ⟨he', hae'⟩
    · exfalso
      obtain ⟨r, hr, hre, hra, hrv⟩ := lookupAV_some hl
      exact hnu t he hid ⟨n, r.a, r.v, sp.sub _ _ ht, r, hr, hre, rfl, rfl⟩
  · intro e a hne hall v
    refine T.unchanged (e := e) (a := a) ?_ v
    intro q hq he ha
    exfalso
    rcases (T.mem_queue.mp hq).2 with ⟨hadd, hm | ⟨h1, h2, -⟩⟩ | ⟨hadd, hm⟩
    · obtain ⟨x, hx, hd⟩ := hsound _ hm
      exact hall x hx _ hd ⟨he, ha⟩
    · exact hne ⟨he.symm.trans h2, ha.symm.trans h1⟩
    · obtain ⟨x, hx, hd⟩ := hsound _ hm
      exact hall x hx _ hd ⟨he, ha⟩

/-- The full C20 fails: asserting the current value of a cardinality-one attribute while
retracting another (absent) value of it deletes the asserted value, because the search for a
retraction on a cardinality-one attribute joins on entity and attribute only
(db.rs:645-671, 717-724). -/
theorem C20_fails : ∃ db db' now terms ids rep e a v, Reach db ∧ KnownTerms db terms ∧
    transactTerms db now terms ids = .ok (db', rep) ∧ (⟨.add, .inl e, a, .inl v⟩ : TTerm) ∈ terms ∧
    Has db.store.rows e a v ∧ ¬ Has db'.store.rows e a v := by
  obtain ⟨db, h, hp⟩ := reachKept_of_setup (txs := [dataTx]) (p := fun db =>
    decide (KnownTerms db [addE e1 xOne (str "a"), retE e1 xOne (str "zz")]) &&
    hasB db e1 xOne (str "a") &&
    match transactTerms db 0 [addE e1 xOne (str "a"), retE e1 xOne (str "zz")] [] with
    | .ok (db', _) => !hasB db' e1 xOne (str "a")
    | _ => false) (by decide +kernel)
  simp only [Bool.and_eq_true, decide_eq_true_eq, hasB_iff] at hp
  obtain ⟨⟨hk, hh⟩, hp⟩ := hp
  split at hp
  · rename_i db' rep ht
    refine ⟨db, db', 0, _, [], rep, e1, xOne, str "a", h.reach, hk, ht, by simp [addE], hh, ?_⟩
    intro hn
    rw [← hasB_iff] at hn
    rw [hn] at hp; simp at hp
  · simp at hp

/-- The schema of the example with a second identity attribute `:x/id2` at 65539. -/
def setup2Tx : Tx := (installIdentity "id2" DB_TYPE_STRING, [tid "id2"])

/-- The full C20 fails: `{:db/id "t" :x/id "k" :x/id2 "new"}` with "k" existing: the tempid upserts,
and the assertion of the second identity is dropped (upsert_resolution.rs:155-165 moves it to
`upserted`, which tx.rs:1107-1123 does not apply). -/
theorem C20_fails_upsert : ∃ db db' now terms ids rep t n a v, Reach db ∧ KnownTerms db terms ∧
    transactTerms db now terms ids = .ok (db', rep) ∧
    (⟨.add, .inr (.external t), a, .inl v⟩ : TTerm) ∈ terms ∧ AMap.get rep.tempids t = some n ∧
    ¬ Has db'.store.rows n a v := by
  obtain ⟨db, h, hp⟩ := reachKept_of_setup
    (txs := [setup2Tx, ([addT "e" xId (str "k")], [tid "e"])]) (p := fun db =>
    decide (KnownTerms db [addT "t" xId (str "k"), addT "t" 65539 (str "new")]) &&
    match transactTerms db 0 [addT "t" xId (str "k"), addT "t" 65539 (str "new")] [tid "t"] with
    | .ok (db', rep) => !hasB db' 65540 65539 (str "new") &&
        decide (AMap.get rep.tempids "t".toList = some 65540)
    | _ => false) (by decide +kernel)
  simp only [Bool.and_eq_true, decide_eq_true_eq] at hp
  obtain ⟨hk, hp⟩ := hp
  split at hp
  · rename_i db' rep ht
    simp only [Bool.and_eq_true, Bool.not_eq_true', decide_eq_true_eq] at hp
    refine ⟨db, db', 0, _, _, rep, "t".toList, 65540, 65539, str "new", h.reach, hk, ht,
      by simp [addT, tid], hp.2, ?_⟩
    intro hn
    rw [← hasB_iff, hp.1] at hn
    simp at hn
  · simp at hp

/-- Retracting a value that an entity does not have for a cardinality-one attribute removes the
value it does have (same cause as `C20_fails`): (e, a) is mentioned, but the datom removed is not
the datom retracted. -/
theorem C20_retract_other_fails : ∃ db db' now terms ids rep e a v v', Reach db ∧
    KnownTerms db terms ∧ transactTerms db now terms ids = .ok (db', rep) ∧
    terms = [⟨.retract, .inl e, a, .inl v'⟩] ∧ v ≠ v' ∧
    Has db.store.rows e a v ∧ ¬ Has db'.store.rows e a v := by
  obtain ⟨db, h, hp⟩ := reachKept_of_setup (txs := [dataTx]) (p := fun db =>
    decide (KnownTerms db [retE e1 xOne (str "zz")]) &&
    hasB db e1 xOne (str "a") &&
    match transactTerms db 0 [retE e1 xOne (str "zz")] [] with
    | .ok (db', _) => !hasB db' e1 xOne (str "a")
    | _ => false) (by decide +kernel)
  simp only [Bool.and_eq_true, decide_eq_true_eq, hasB_iff] at hp
  obtain ⟨⟨hk, hh⟩, hp⟩ := hp
  split at hp
  · rename_i db' rep ht
    refine ⟨db, db', 0, _, [], rep, e1, xOne, str "a", str "zz", h.reach, hk, ht, rfl,
      by decide, hh, ?_⟩
    intro hn
    rw [← hasB_iff] at hn
    rw [hn] at hp; simp at hp
  · simp at hp

/-- C15, second half: a transaction asserting one value of a unique attribute for two entities
fails, whatever else it contains. -/
theorem C15_conflict_rejected {db : Db} {now terms ids} (hr : ReachKept db) {e e' a : Entid} {v : TypedValue}
    {at_ : Attribute} (hat : db.schema.attr a = some at_) (hu : at_.unique.isSome) (hne : e ≠ e')
    (h1 : (⟨.add, .inl e, a, .inl v⟩ : TTerm) ∈ terms)
    (h2 : (⟨.add, .inl e', a, .inl v⟩ : TTerm) ∈ terms)
    (hnr : ∀ x ∈ terms, x.op = .add) :
    ∀ db' rep, transactTerms db now terms ids ≠ .ok (db', rep) := by
  intro db' rep h
  obtain ⟨T⟩ := transact_trace h
  obtain ⟨σ, -, -, -, hadd, -⟩ := C20_effect_partial h
  have hi := rowsInv_apply (rowsInv_reach hr).1 (T.qok (rowsInv_reach hr).2) T.applied
  have hno : ∀ at_, db.schema.attr a = some at_ → at_.multival = false →
      ∀ x' ∈ terms, ∀ y', Denotes σ x' y' → y'.op = .retract → ∀ e, ¬ (y'.e = e ∧ y'.a = a) := by
    intro _ _ _ x' hx' y' hd ho
    rw [hd.1, hnr x' hx'] at ho; simp at ho
  have p1 := hadd _ h1 ⟨.add, e, a, v⟩ ⟨rfl, rfl, rfl, rfl⟩ rfl (by simp)
    (fun at_ h3 h4 x' h5 y' h6 h7 => hno at_ h3 h4 x' h5 y' h6 h7 e)
  have p2 := hadd _ h2 ⟨.add, e', a, v⟩ ⟨rfl, rfl, rfl, rfl⟩ rfl (by simp)
    (fun at_ h3 h4 x' h5 y' h6 h7 => hno at_ h3 h4 x' h5 y' h6 h7 e')
  rw [T.has_iff] at p1 p2
  obtain ⟨r, hr1, re, ra, rv⟩ := p1
  obtain ⟨r', hr2, re', ra', rv'⟩ := p2
  obtain ⟨at1, k1, -, k2, -⟩ := hi.typed r hr1
  obtain ⟨at2, k3, -, k4, -⟩ := hi.typed r' hr2
  simp only at re ra rv re' ra' rv'
  rw [ra, hat] at k1; rw [ra', hat] at k3
  cases k1; cases k3
  have := uniqueOk_av hi.uniq hr1 hr2 (k2.trans hu) (k4.trans hu) (ra.trans ra'.symm) (rv.trans rv'.symm)
  exact hne (by rw [← re, ← re', this])

end Mentat
