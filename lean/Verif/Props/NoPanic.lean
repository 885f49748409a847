import Verif.Proofs.NoPanic
import Verif.Props.Tempids
/- C28: when transacting panics. -/
namespace Mentat

/-- `ids` lists the tempids of `terms`, each once: how pipeline stage 1 interns them. -/
def Interned (terms : List TTerm) (ids : List TempId) : Prop :=
  ids.Nodup ∧ ∀ t, t ∈ ids ↔ ∃ x ∈ terms, x.e = .inr t ∨ x.v = .inr t

/-- C28: a transaction returns a report or an error, provided that
* there are entids left to allocate,
* `:db/txInstant` and `:db/ident` still have the types they are bootstrapped with,
* identity attributes are indexed, and
* an identity asserted between two tempids that both upsert is one that some entity has. -/
theorem C28_no_panic_partial {db : Db} {now terms ids} (hr : ReachKept db) (hids : Interned terms ids)
    (hroom : db.parts.user.next + (ids.length : Int) ≤ db.parts.user.fin)
    (hroom2 : db.parts.tx.next < db.parts.tx.fin)
    (hti : ∀ at_, db.schema.attr DB_TX_INSTANT = some at_ → at_.multival = false)
    (hident : ∀ at_, db.schema.attr DB_IDENT = some at_ → at_.valueType = .keyword)
    (hindex : ∀ a at_, db.schema.attr a = some at_ → at_.unique = some .identity → at_.index = true)
    (hlink : ∀ t1 a t2 n1 n2, (⟨.add, .inr t1, a, .inr t2⟩ : TTerm) ∈ terms → IsIdentity db.schema a →
      Upserts db.schema db.store.rows terms t1 n1 → Upserts db.schema db.store.rows terms t2 n2 →
      ∃ n, Has db.store.rows n a (.ref n2)) :
    transactTerms db now terms ids ≠ .panic := by
  obtain ⟨hi, hx⟩ := rowsInv_reach hr
  have hp := (histInv_reach hr.reach).parts
  refine transactTermsWith_np ?_ hids.1 hids.2 ?_ ?_ hroom hroom2 ⟨fun at_ h => ⟨hx at_ h, hti at_ h⟩, hident⟩ ?_
  · intro t1 a t2 n1 n2 hm hid u1 u2
    obtain ⟨n, hn⟩ := hlink t1 a t2 n1 n2 hm hid u1 u2
    obtain ⟨at_, hat, hu⟩ := hid
    exact ⟨n, (lookupAV_iff hi hat (by rw [hu]; rfl) (hindex a at_ hat hu) n).mpr hn⟩
  · have := hp.user; omega
  · have := hp.tx; omega
  · intro r hr ha
    obtain ⟨at_, h1, h2, -⟩ := hi.typed r hr
    rw [ha] at h1
    rw [← h2, hident _ h1]

/-- A unique identity reference `:x/r` (65539) and two entities (65540, 65541) with identities
"p" and "q"; then a transaction relating them through `:x/r` by tempids. -/
def linkTxs : List Tx :=
  [(installIdentity "r" DB_TYPE_REF, [tid "r"]),
   ([addT "p" xId (str "p"), addT "q" xId (str "q")], [tid "p", tid "q"])]

def linkTerms : List TTerm :=
  [addT "t" xId (str "p"), addT "u" xId (str "q"), addTT "t" 65539 "u"]

/-- The hypotheses of `C28_no_panic_partial` hold of a transaction with an existing link. -/
theorem C28_example : ∃ db, ReachKept db ∧ Interned linkTerms [tid "t", tid "u"] ∧
    Has db.store.rows 65540 65539 (.ref 65541) ∧ Upserts db.schema db.store.rows linkTerms (tid "t") 65540 ∧
    Upserts db.schema db.store.rows linkTerms (tid "u") 65541 ∧
    ∃ db' rep, transactTerms db 0 linkTerms [tid "t", tid "u"] = .ok (db', rep) := by
  obtain ⟨db, h, hp⟩ := reachKept_of_setup
    (txs := linkTxs ++ [([addE 65540 65539 (.ref 65541)], [])]) (p := fun db =>
    hasB db 65540 xId (str "p") && hasB db 65541 xId (str "q") && hasB db 65540 65539 (.ref 65541) &&
    ((db.schema.attr xId).any fun at_ => decide (at_.unique = some .identity)) &&
    match transactTerms db 0 linkTerms [tid "t", tid "u"] with
    | .ok _ => true
    | _ => false) (by decide +kernel)
  simp only [Bool.and_eq_true, decide_eq_true_eq, hasB_iff, Option.any_eq_true] at hp
  obtain ⟨⟨⟨⟨h1, h2⟩, h3⟩, i1⟩, hp⟩ := hp
  refine ⟨db, h, ⟨by decide, ?_⟩, h3, .direct (a := xId) (v := str "p") (by simp [linkTerms, addT]) i1 h1,
    .direct (a := xId) (v := str "q") (by simp [linkTerms, addT]) i1 h2, ?_⟩
  · intro t
    simp only [linkTerms, addT, addTT, List.mem_cons, List.not_mem_nil, or_false]
    constructor
    · rintro (rfl | rfl)
      · exact ⟨_, Or.inl rfl, Or.inl rfl⟩
      · exact ⟨_, Or.inr (Or.inl rfl), Or.inl rfl⟩
    · rintro ⟨x, rfl | rfl | rfl, h⟩ <;> simp at h
      · exact Or.inl h.symm
      · exact Or.inr h.symm
      · rcases h with h | h
        · exact Or.inl h.symm
        · exact Or.inr h.symm
  · split at hp
    · rename_i p hp'
      exact ⟨p.1, p.2, hp'⟩
    · simp at hp

/-- Full C28 fails: asserting a new unique-identity reference between two tempids that both upsert
hits "Every tempid should be allocated at most once" (tx.rs:808-812): the assertion is left for
allocation although its tempids are resolved (upsert_resolution.rs:170-174, 155-165). -/
theorem C28_fails : ∃ db, ReachKept db ∧ KnownTerms db linkTerms ∧
    transactTerms db 0 linkTerms [tid "t", tid "u"] = .panic := by
  obtain ⟨db, h, hp⟩ := reachKept_of_setup (txs := linkTxs) (p := fun db =>
    decide (KnownTerms db linkTerms) &&
    decide (transactTerms db 0 linkTerms [tid "t", tid "u"] = .panic)) (by decide +kernel)
  simp only [Bool.and_eq_true, decide_eq_true_eq] at hp
  exact ⟨db, h, hp.1, hp.2⟩

/-- It also fails once `:db/txInstant` has been made cardinality many: two instants for the current
transaction violate `assert!(ars.add.len() <= 1)` (tx.rs:1144). -/
theorem C28_fails_txInstant : ∃ db, ReachKept db ∧
    ∃ terms, KnownTerms db terms ∧ transactTerms db 0 terms [] = .panic := by
  obtain ⟨db, h, hp⟩ := reachKept_of_setup
    (txs := [([addE DB_TX_INSTANT DB_CARDINALITY (.ref DB_CARDINALITY_MANY)], [])]) (p := fun db =>
    decide (KnownTerms db [addE db.parts.tx.next DB_TX_INSTANT (.instant 1),
      addE db.parts.tx.next DB_TX_INSTANT (.instant 2)]) &&
    decide (transactTerms db 0 [addE db.parts.tx.next DB_TX_INSTANT (.instant 1),
      addE db.parts.tx.next DB_TX_INSTANT (.instant 2)] [] = .panic)) (by decide +kernel)
  simp only [Bool.and_eq_true, decide_eq_true_eq] at hp
  exact ⟨db, h, _, hp.1, hp.2⟩

end Mentat
