import Mathlib.Logic.Basic
import Mathlib.Tactic.ByContra
import Verif.Proofs.Errors
import Verif.Proofs.Effect
import Verif.Proofs.Examples
/- C10, C11, C12: change classification, type checking and cardinality checking. -/
namespace Mentat

/-! ### C10 -/
section
variable {K V : Type} [DecidableEq K]

/-- What was witnessed about `k`, in order. -/
def about (k : K) (l : List (K × V × Bool)) : List (V × Bool) :=
  l.filterMap fun x => if x.1 = k then some x.2 else none

/-- C10, for every sequence: nothing is classified as both asserted and retracted. -/
theorem C10_disjoint (l : List (K × V × Bool)) (k : K) :
    ¬ ((AMap.get (ARASet.witnessAll {} l).asserted k).isSome ∧
       (AMap.get (ARASet.witnessAll {} l).retracted k).isSome) := by
  suffices h : ∀ s : ARASet K V, (∀ k, ¬ ((AMap.get s.asserted k).isSome ∧ (AMap.get s.retracted k).isSome)) →
      ∀ k, ¬ ((AMap.get (s.witnessAll l).asserted k).isSome ∧
       (AMap.get (s.witnessAll l).retracted k).isSome) from h {} (by simp) k
  induction l with
  | nil => intro s hs; exact hs
  | cons x r ih =>
    intro s hs
    obtain ⟨k', v, added⟩ := x
    refine ih _ ?_
    intro k
    have := hs k
    have h' := hs k'
    unfold ARASet.witness
    split
    · split
      · rename_i rv hr
        simp only [AMap.get_erase]
        split <;> simp_all
      · rename_i hr
        simp only [AMap.get_insert]
        split
        · rename_i hk; subst hk; simp [hr]
        · exact this
    · split
      · rename_i rv hr
        simp only [AMap.get_erase]
        split <;> simp_all
      · rename_i hr
        simp only [AMap.get_insert]
        split
        · rename_i hk; subst hk; simp [hr]
        · exact this

/-- The entries of one key. -/
structure KeyState (V : Type) where
  asserted : Option V := none
  retracted : Option V := none
  altered : Option (V × V) := none

def ARASet.at (s : ARASet K V) (k : K) : KeyState V :=
  ⟨AMap.get s.asserted k, AMap.get s.retracted k, AMap.get s.altered k⟩

def KeyState.step (s : KeyState V) (x : V × Bool) : KeyState V :=
  if x.2 then
    match s.retracted with
    | some rv => { s with retracted := none, altered := some (rv, x.1) }
    | none => { s with asserted := some x.1 }
  else
    match s.asserted with
    | some av => { s with asserted := none, altered := some (x.1, av) }
    | none => { s with retracted := some x.1 }

theorem ARASet.at_witness (s : ARASet K V) (k k' : K) (v : V) (b : Bool) :
    (s.witness k' v b).at k = if k' = k then (s.at k).step (v, b) else s.at k := by
  unfold ARASet.witness ARASet.at KeyState.step
  by_cases hk : k' = k
  · subst hk
    cases b with
    | true =>
      simp only [if_true]
      cases h : AMap.get s.retracted k' <;> simp [h]
    | false =>
      simp only [Bool.false_eq_true, if_false, if_true]
      cases h : AMap.get s.asserted k' <;> simp [h]
  · simp only [hk, if_false]
    cases b with
    | true =>
      simp only [if_true]
      cases h : AMap.get s.retracted k' <;> simp [AMap.get_erase, AMap.get_insert, hk]
    | false =>
      simp only [Bool.false_eq_true, if_false]
      cases h : AMap.get s.asserted k' <;> simp [AMap.get_erase, AMap.get_insert, hk]

theorem ARASet.at_witnessAll (l : List (K × V × Bool)) (s : ARASet K V) (k : K) :
    (s.witnessAll l).at k = (about k l).foldl KeyState.step (s.at k) := by
  induction l generalizing s with
  | nil => rfl
  | cons x r ih =>
    obtain ⟨k', v, b⟩ := x
    unfold ARASet.witnessAll
    rw [ih, ARASet.at_witness]
    unfold about
    by_cases hk : k' = k <;> simp [hk]

theorem mem_about {k : K} {l : List (K × V × Bool)} {v : V} {b : Bool} :
    (v, b) ∈ about k l ↔ (k, v, b) ∈ l := by
  unfold about
  rw [List.mem_filterMap]
  constructor
  · rintro ⟨⟨k', v', b'⟩, hx, h⟩
    simp only at h
    split at h
    · rename_i hk; subst hk; cases h; exact hx
    · simp at h
  · intro h; exact ⟨_, h, by simp⟩

/-- C10, for the keys that are added at most once and retracted at most once (the assumption stated
in the code): the classification is exactly what was witnessed, whatever the order.
(Missing: keys witnessed more often, `C10_fails`.) -/
theorem C10_exact_partial (l : List (K × V × Bool)) (k : K)
    (h1 : ((about k l).filter (·.2)).length ≤ 1) (h2 : ((about k l).filter (!·.2)).length ≤ 1) :
    (∀ v, AMap.get (ARASet.witnessAll {} l).asserted k = some v ↔
      (k, v, true) ∈ l ∧ ∀ o, (k, o, false) ∉ l) ∧
    (∀ v, AMap.get (ARASet.witnessAll {} l).retracted k = some v ↔
      (k, v, false) ∈ l ∧ ∀ n, (k, n, true) ∉ l) ∧
    (∀ o n, AMap.get (ARASet.witnessAll {} l).altered k = some (o, n) ↔
      (k, o, false) ∈ l ∧ (k, n, true) ∈ l) := by
  have hs := ARASet.at_witnessAll l ({} : ARASet K V) k
  have ha : AMap.get (ARASet.witnessAll {} l).asserted k = ((ARASet.witnessAll {} l).at k).asserted := rfl
  have hr : AMap.get (ARASet.witnessAll {} l).retracted k = ((ARASet.witnessAll {} l).at k).retracted := rfl
  have hl : AMap.get (ARASet.witnessAll {} l).altered k = ((ARASet.witnessAll {} l).at k).altered := rfl
  rw [ha, hr, hl, hs]
  simp only [← mem_about]
  have h0 : ({} : ARASet K V).at k = {} := rfl
  rw [h0]
  generalize about k l = m at *
  match m, h1, h2 with
  | [], _, _ => simp
  | [(v, true)], _, _ => simp [KeyState.step, eq_comm]
  | [(v, false)], _, _ => simp [KeyState.step, eq_comm]
  | [(v, true), (w, false)], _, _ =>
    simp only [List.foldl_cons, List.foldl_nil, KeyState.step]
    simp only [if_true, Bool.false_eq_true, if_false]
    refine ⟨?_, ?_, ?_⟩ <;> intros <;> simp_all [eq_comm]
  | [(v, false), (w, true)], _, _ =>
    simp only [List.foldl_cons, List.foldl_nil, KeyState.step]
    simp only [if_true, Bool.false_eq_true, if_false]
    refine ⟨?_, ?_, ?_⟩ <;> intros <;> simp_all [eq_comm]
  | (_, true) :: (_, true) :: r, h1, _ => simp at h1
  | (_, false) :: (_, false) :: r, _, h2 => simp at h2
  | (_, true) :: (_, false) :: (_, true) :: r, h1, _ => simp at h1
  | (_, true) :: (_, false) :: (_, false) :: r, _, h2 => simp at h2
  | (_, false) :: (_, true) :: (_, true) :: r, h1, _ => simp at h1
  | (_, false) :: (_, true) :: (_, false) :: r, _, h2 => simp at h2
end

/-- C10: the hypotheses hold of histories with all three classes in them. -/
theorem C10_example :
    let l : List (Nat × Nat × Bool) := [(1, 10, true), (2, 20, false), (3, 30, false), (3, 31, true)]
    (∀ k, ((about k l).filter (·.2)).length ≤ 1 ∧ ((about k l).filter (!·.2)).length ≤ 1) ∧
    ARASet.witnessAll {} l = ⟨[(1, 10)], [(2, 20)], [(3, (30, 31))]⟩ := by
  refine ⟨?_, by decide⟩
  intro k
  unfold about
  by_cases h1 : 1 = k <;> by_cases h2 : 2 = k <;> by_cases h3 : 3 = k <;>
    simp [h1, h2, h3] <;> omega

/-- The full C10 fails: a key that is added, retracted and added again is both asserted and
altered. -/
theorem C10_fails : ∃ (l : List (Nat × Nat × Bool)) (k : Nat),
    (AMap.get (ARASet.witnessAll {} l).asserted k).isSome ∧
    (AMap.get (ARASet.witnessAll {} l).altered k).isSome :=
  ⟨[(1, 10, true), (1, 10, false), (1, 11, true)], 1, by decide, by decide⟩

/-! ### C11 -/

/-- The value of [e a v] is not of `a`'s value type. -/
def IllTyped (s : Schema) (a : Entid) (v : TypedValue) : Prop :=
  ∃ at_, s.attr a = some at_ ∧ at_.valueType ≠ v.valueType

/-- The same of a term that may have a tempid as value, which stands for an entity. -/
def IllTypedTerm (s : Schema) (x : TTerm) : Prop :=
  ∃ at_, s.attr x.a = some at_ ∧
    at_.valueType ≠ (match x.v with | .inl v => v.valueType | .inr _ => .ref)

theorem illTyped_denotes {s : Schema} {m : TempIdMap} {x : TTerm} {y : RTerm} (h : Denotes m x y) :
    IllTyped s y.a y.v ↔ IllTypedTerm s x := by
  obtain ⟨-, h2, -, h4⟩ := h
  unfold IllTyped IllTypedTerm
  rw [h2]
  cases hv : x.v with
  | inl v => rw [hv] at h4; simp only [DenotesV] at h4; rw [h4]
  | inr t =>
    rw [hv] at h4
    obtain ⟨n, -, h4⟩ := h4
    rw [h4]; rfl

/-- C11: the error lists exactly the ill-typed assertions and retractions, for every list of final
terms over known attributes. -/
theorem C11_lists {s : Schema} {ys : List RTerm} {t : Trie} (h : extendTrie s ys [] = .ok t) (e a v) :
    (e, a, v) ∈ typeDisagreements s t ↔
      ((⟨.add, e, a, v⟩ : RTerm) ∈ ys ∨ (⟨.retract, e, a, v⟩ : RTerm) ∈ ys) ∧ IllTyped s a v := by
  have hs := extendTrie_spec h
  rw [typeDisagreements_mem (hs.wf trieWF_nil), hs.add, hs.ret]
  simp [Trie.entry, IllTyped]

theorem extendTrie_known {s : Schema} : ∀ {ys : List RTerm} {t}, (∀ y ∈ ys, (s.attr y.a).isSome) →
    ∃ t', extendTrie s ys t = .ok t' := by
  intro ys
  induction ys with
  | nil => intro t _; exact ⟨t, rfl⟩
  | cons y r ih =>
    intro t h
    unfold extendTrie
    cases hy : s.attr y.a with
    | none => have := h y (by simp); simp [hy] at this
    | some at_ => exact ih fun z hz => h z (List.mem_cons_of_mem _ hz)

theorem intoTrie_known {s : Schema} {s3 : Stage3} (h : ∀ y ∈ s3.terms, (s.attr y.a).isSome) :
    ∃ t, intoTrie s s3.pops s3.inert = .ok t := by
  unfold intoTrie
  simp only [Stage3.terms, List.mem_append] at h
  obtain ⟨t1, h1⟩ := extendTrie_known (s := s) (t := []) (ys := s3.pops.resolved) fun y hy => h y (by simp [hy])
  obtain ⟨t2, h2⟩ := extendTrie_known (s := s) (t := t1) (ys := s3.pops.allocated) fun y hy => h y (by simp [hy])
  obtain ⟨t3, h3⟩ := extendTrie_known (s := s) (t := t2) (ys := s3.inert) fun y hy => h y (by simp [hy])
  exact ⟨t3, by simp [h1, h2, h3]⟩

theorem mem_s3_terms {s3 : Stage3} {y : RTerm} : y ∈ s3.terms ↔
    y ∈ s3.inert ∨ y ∈ s3.pops.resolved ∨ y ∈ s3.pops.allocated := by
  simp only [Stage3.terms, List.mem_append]
  constructor
  · rintro ((h | h) | h) <;> simp [h]
  · rintro (h | h | h) <;> simp [h]

/-- The transaction gets as far as the checks: it has an id, its tempids resolve (to `s3`), and its
attributes are known. -/
structure Resolves (db : Db) (terms : List TTerm) (ids : List TempId) (s3 : Stage3) : Prop where
  id : ∃ x, db.parts.tx.allocate 1 = .ok x
  resolved : resolveTempIds db.schema db.store db.parts.user terms ids = .ok s3
  known : ∀ x ∈ terms, (db.schema.attr x.a).isSome

theorem Resolves.attrs {db terms ids s3} (h : Resolves db terms ids s3) :
    ∀ y ∈ s3.terms, (db.schema.attr y.a).isSome := by
  intro y hy
  obtain ⟨U, sp⟩ := resolveTempIds_spec h.resolved
  obtain ⟨x, hx, hd⟩ := sp.sound y (mem_s3_terms.mp hy)
  rw [hd.2.1]; exact h.known x hx

/-- A transaction that gets as far as the checks fails them exactly if its trie does. -/
theorem Resolves.checks {db terms ids s3} (h : Resolves db terms ids s3) (now : Int) :
    ∃ t, TrieOf db.schema s3.terms t ∧
      (transactTerms db now terms ids = .err .typeDisagreements ↔ typeDisagreements db.schema t ≠ []) ∧
      (transactTerms db now terms ids = .err .cardinalityConflicts ↔
        typeDisagreements db.schema t = [] ∧ cardinalityConflicts db.schema t ≠ []) := by
  obtain ⟨t, ht⟩ := intoTrie_known h.attrs
  obtain ⟨⟨tx, p⟩, ha⟩ := h.id
  refine ⟨t, intoTrie_spec ht, ?_⟩
  have hc := @applyTrie_check db db.schema tx now t .materializeAndCommit
  rw [← hc.1, ← hc.2]
  unfold transactTerms transactTermsWith
  simp only [ha, h.resolved, ht, Res.ok_bind]
  cases applyTrie db db.schema tx now t .materializeAndCommit <;> simp

theorem disagree_iff {s : Schema} {ys : List RTerm} {t} (h : TrieOf s ys t) :
    typeDisagreements s t ≠ [] ↔ ∃ y ∈ ys, IllTyped s y.a y.v := by
  constructor
  · intro hne
    obtain ⟨⟨e, a, v⟩, hm⟩ := List.exists_mem_of_ne_nil _ hne
    rw [typeDisagreements_mem h.wf, h.add, h.ret] at hm
    obtain ⟨h1 | h1, h2⟩ := hm
    · exact ⟨_, h1, h2⟩
    · exact ⟨_, h1, h2⟩
  · rintro ⟨⟨op, e, a, v⟩, hy, hi⟩ hn
    have : (e, a, v) ∈ typeDisagreements s t := by
      rw [typeDisagreements_mem h.wf, h.add, h.ret]
      refine ⟨?_, hi⟩
      cases op
      · exact Or.inl hy
      · exact Or.inr hy
    rw [hn] at this; simp at this

/-- C11: a transaction that gets as far as the checks is rejected for type disagreement exactly if
one of its final terms is ill-typed. -/
theorem C11_final {db terms ids s3} (h : Resolves db terms ids s3) (now : Int) :
    transactTerms db now terms ids = .err .typeDisagreements ↔
      ∃ y ∈ s3.terms, IllTyped db.schema y.a y.v := by
  obtain ⟨t, ht, h1, -⟩ := h.checks now
  rw [h1, disagree_iff ht]

/-- C11, in part: a transaction in which no tempid upserts, and that gets as far as the checks, is
rejected for type disagreement exactly if one of the terms it was given is ill-typed.
(Missing: transactions with upserts, `C11_fails`.) -/
theorem C11_exact_partial {db terms ids s3} (h : Resolves db terms ids s3) (now : Int)
    (hn : ∀ t n, ¬ Upserts db.schema db.store.rows terms t n) :
    transactTerms db now terms ids = .err .typeDisagreements ↔
      ∃ x ∈ terms, IllTypedTerm db.schema x := by
  rw [C11_final h]
  obtain ⟨U, sp⟩ := resolveTempIds_spec h.resolved
  constructor
  · rintro ⟨y, hy, hi⟩
    obtain ⟨x, hx, hd⟩ := sp.sound y (mem_s3_terms.mp hy)
    exact ⟨x, hx, (illTyped_denotes hd).mp hi⟩
  · rintro ⟨x, hx, hi⟩
    rcases sp.complete x hx with ⟨y, hy, hd⟩ | hd
    · exact ⟨y, mem_s3_terms.mpr hy, (illTyped_denotes hd).mpr hi⟩
    · obtain ⟨-, -, t, n, v, -, hU, -⟩ := hd
      exact absurd (sp.why t n hU) (hn t n)

/-- C11: whatever the tempids do, a rejection always has an ill-typed term to show. -/
theorem C11_only {db terms ids s3} (h : Resolves db terms ids s3) (now : Int)
    (he : transactTerms db now terms ids = .err .typeDisagreements) :
    ∃ x ∈ terms, IllTypedTerm db.schema x := by
  rw [C11_final h] at he
  obtain ⟨U, sp⟩ := resolveTempIds_spec h.resolved
  obtain ⟨y, hy, hi⟩ := he
  obtain ⟨x, hx, hd⟩ := sp.sound y (mem_s3_terms.mp hy)
  exact ⟨x, hx, (illTyped_denotes hd).mp hi⟩

/-- The full C11 fails: an ill-typed assertion of an identity by a tempid that upserts through
another identity is dropped before the check, and the transaction succeeds. -/
theorem C11_fails : ∃ db db' now terms ids rep x, Reach db ∧ KnownTerms db terms ∧ x ∈ terms ∧
    IllTypedTerm db.schema x ∧ transactTerms db now terms ids = .ok (db', rep) := by
  obtain ⟨db, h, hp⟩ := reachKept_of_setup
    (txs := [(installIdentity "id2" DB_TYPE_STRING, [tid "id2"]), ([addT "e" xId (str "k")], [tid "e"])])
    (p := fun db =>
      decide (KnownTerms db [addT "t" xId (str "k"), addT "t" 65539 (.long 5)]) &&
      decide ((db.schema.attr 65539).any fun x => x.valueType = .string) &&
      match transactTerms db 0 [addT "t" xId (str "k"), addT "t" 65539 (.long 5)] [tid "t"] with
      | .ok _ => true
      | _ => false) (by decide +kernel)
  simp only [Bool.and_eq_true, decide_eq_true_eq, Option.any_eq_true] at hp
  obtain ⟨⟨hk, at_, hat, hty⟩, hp⟩ := hp
  split at hp
  · rename_i r ht
    obtain ⟨db', rep⟩ := r
    refine ⟨db, db', 0, _, _, rep, addT "t" 65539 (.long 5), h.reach, hk, by simp, ?_, ht⟩
    exact ⟨at_, hat, by simp [hty, addT, TypedValue.valueType]⟩
  · simp at hp

/-! ### C12 -/

/-- Two different values for one entity and cardinality-one attribute, or the same datom both
asserted and retracted. -/
def Conflict (s : Schema) (ys : List RTerm) : Prop :=
  (∃ e a v v' at_, s.attr a = some at_ ∧ at_.multival = false ∧ v ≠ v' ∧
    (⟨.add, e, a, v⟩ : RTerm) ∈ ys ∧ (⟨.add, e, a, v'⟩ : RTerm) ∈ ys) ∨
  (∃ e a v, (⟨.add, e, a, v⟩ : RTerm) ∈ ys ∧ (⟨.retract, e, a, v⟩ : RTerm) ∈ ys)

theorem conflict_iff {s : Schema} {ys : List RTerm} {t} (h : TrieOf s ys t) :
    cardinalityConflicts s t ≠ [] ↔ Conflict s ys := by
  rw [ne_eq, cardinalityConflicts_nil h.wf]
  simp only [h.add, h.ret]
  unfold Conflict
  constructor
  · intro hn
    by_contra hc
    apply hn
    refine ⟨?_, ?_⟩
    · intro a e at_ hat hm v hv v' hv'
      by_contra hne
      exact hc (Or.inl ⟨e, a, v, v', at_, hat, hm, hne, hv, hv'⟩)
    · rintro a e v ⟨h1, h2⟩
      exact hc (Or.inr ⟨e, a, v, h1, h2⟩)
  · rintro (⟨e, a, v, v', at_, hat, hm, hne, hv, hv'⟩ | ⟨e, a, v, h1, h2⟩) ⟨k1, k2⟩
    · exact hne (k1 a e at_ hat hm v hv v' hv')
    · exact k2 a e v ⟨h1, h2⟩

theorem trieOf_extend {s : Schema} {ys : List RTerm} {t : Trie} (h : extendTrie s ys [] = .ok t) :
    TrieOf s ys t := by
  have hs := extendTrie_spec h
  refine ⟨hs.wf trieWF_nil, ?_, ?_, hs.attrs, ?_⟩
  · intro a e v; rw [hs.add]; simp [Trie.entry]
  · intro a e v; rw [hs.ret]; simp [Trie.entry]
  · intro k hk
    rcases hs.keys k hk with h | h
    · simp [AMap.keys] at h
    · exact h

/-- C12: a transaction that gets as far as the checks is rejected for a cardinality conflict exactly
if its final terms are well typed and conflict. -/
theorem C12_final {db terms ids s3} (h : Resolves db terms ids s3) (now : Int) :
    transactTerms db now terms ids = .err .cardinalityConflicts ↔
      (¬ ∃ y ∈ s3.terms, IllTyped db.schema y.a y.v) ∧ Conflict db.schema s3.terms := by
  obtain ⟨t, ht, -, h2⟩ := h.checks now
  rw [h2, ← conflict_iff ht, ← disagree_iff ht]
  simp

/-- C12: an accepted transaction has no conflict among its final terms. -/
theorem C12_accepted {db now terms ids db' rep} (h : transactTerms db now terms ids = .ok (db', rep)) :
    ∃ s3, resolveTempIds db.schema db.store db.parts.user terms ids = .ok s3 ∧
      ¬ Conflict db.schema s3.terms ∧ ¬ ∃ y ∈ s3.terms, IllTyped db.schema y.a y.v := by
  obtain ⟨T⟩ := transact_trace h
  refine ⟨T.s3, T.stage3, ?_, ?_⟩
  · rw [← conflict_iff T.t0Spec, not_not]; exact T.cardsOk
  · rw [← disagree_iff T.t0Spec, not_not]; exact T.typesOk

/-- C12: the conflicts reported are exactly the conflicts there are, each with exactly its values. -/
theorem C12_lists {s : Schema} {ys : List RTerm} {t : Trie} (h : extendTrie s ys [] = .ok t) (e a) :
    ((∃ vs, .addConflict e a vs ∈ cardinalityConflicts s t) ↔
      ∃ v v' at_, s.attr a = some at_ ∧ at_.multival = false ∧ v ≠ v' ∧
        (⟨.add, e, a, v⟩ : RTerm) ∈ ys ∧ (⟨.add, e, a, v'⟩ : RTerm) ∈ ys) ∧
    (∀ vs, .addConflict e a vs ∈ cardinalityConflicts s t →
      ∀ v, v ∈ vs ↔ (⟨.add, e, a, v⟩ : RTerm) ∈ ys) ∧
    ((∃ vs, .addRetractConflict e a vs ∈ cardinalityConflicts s t) ↔
      ∃ v, (⟨.add, e, a, v⟩ : RTerm) ∈ ys ∧ (⟨.retract, e, a, v⟩ : RTerm) ∈ ys) ∧
    (∀ vs, .addRetractConflict e a vs ∈ cardinalityConflicts s t →
      ∀ v, v ∈ vs ↔ (⟨.add, e, a, v⟩ : RTerm) ∈ ys ∧ (⟨.retract, e, a, v⟩ : RTerm) ∈ ys) := by
  have ht := trieOf_extend h
  have hadd : ∀ e a vs, .addConflict e a vs ∈ cardinalityConflicts s t ↔
      vs = (Trie.entry t a e).add ∧ ∃ at_, s.attr a = some at_ ∧ at_.multival = false ∧
        1 < (Trie.entry t a e).add.length := by
    intro e a vs
    unfold cardinalityConflicts
    rw [List.mem_flatMap]
    constructor
    · rintro ⟨⟨⟨a', e'⟩, ar⟩, hm, hx⟩
      have he := entry_of_mem ht.wf hm
      simp only [List.mem_append] at hx
      rcases hx with hx | hx
      · split at hx
        · rename_i at_ hat
          split at hx
          · rename_i hc
            simp only [List.mem_singleton, CardConflict.addConflict.injEq] at hx
            obtain ⟨rfl, rfl, rfl⟩ := hx
            simp only [Bool.and_eq_true, Bool.not_eq_true', decide_eq_true_eq] at hc
            rw [he]
            exact ⟨rfl, at_, hat, hc.1, hc.2⟩
          · simp at hx
        · simp at hx
      · split at hx <;> simp at hx
    · rintro ⟨rfl, at_, hat, hm, hlen⟩
      refine ⟨((a, e), Trie.entry t a e), mem_of_entry_ne (Or.inl (by
        intro hn; rw [hn] at hlen; simp at hlen)), ?_⟩
      simp [hat, hm, hlen]
  have hret : ∀ e a vs, .addRetractConflict e a vs ∈ cardinalityConflicts s t ↔
      vs = (Trie.entry t a e).retract.filter (fun v => decide (v ∈ (Trie.entry t a e).add)) ∧ vs ≠ [] := by
    intro e a vs
    unfold cardinalityConflicts
    rw [List.mem_flatMap]
    constructor
    · rintro ⟨⟨⟨a', e'⟩, ar⟩, hm, hx⟩
      have he := entry_of_mem ht.wf hm
      simp only [List.mem_append] at hx
      rcases hx with hx | hx
      · split at hx
        · split at hx <;> simp at hx
        · simp at hx
      · split at hx
        · simp at hx
        · rename_i hne
          simp only [List.mem_singleton, CardConflict.addRetractConflict.injEq] at hx
          obtain ⟨rfl, rfl, rfl⟩ := hx
          rw [he]
          exact ⟨rfl, by simpa using hne⟩
    · rintro ⟨rfl, hne⟩
      refine ⟨((a, e), Trie.entry t a e), mem_of_entry_ne (Or.inr (by
        intro hn; rw [hn] at hne; simp at hne)), ?_⟩
      simp only [List.mem_append]
      right
      rw [if_neg (by simpa using hne)]
      simp
  refine ⟨?_, ?_, ?_, ?_⟩
  · simp only [hadd]
    constructor
    · rintro ⟨vs, -, at_, hat, hm, hlen⟩
      by_contra hc
      have := (nodup_length_le_one (ht.wf.addNodup a e)).mpr (by
        intro v hv v' hv'
        by_contra hne
        exact hc ⟨v, v', at_, hat, hm, hne, (ht.add a e v).mp hv, (ht.add a e v').mp hv'⟩)
      omega
    · rintro ⟨v, v', at_, hat, hm, hne, hv, hv'⟩
      refine ⟨_, rfl, at_, hat, hm, ?_⟩
      by_contra hlen
      exact hne ((nodup_length_le_one (ht.wf.addNodup a e)).mp (by omega) v
        ((ht.add a e v).mpr hv) v' ((ht.add a e v').mpr hv'))
  · intro vs hvs v
    rw [((hadd e a vs).mp hvs).1, ht.add]
  · simp only [hret]
    constructor
    · rintro ⟨vs, hvs, hne⟩
      obtain ⟨v, hv⟩ := List.exists_mem_of_ne_nil _ hne
      rw [hvs, List.mem_filter, decide_eq_true_eq, ht.add, ht.ret] at hv
      exact ⟨v, hv.2, hv.1⟩
    · rintro ⟨v, h1, h2⟩
      refine ⟨_, rfl, ?_⟩
      apply List.ne_nil_of_mem (a := v)
      rw [List.mem_filter, decide_eq_true_eq, ht.add, ht.ret]
      exact ⟨h2, h1⟩
  · intro vs hvs v
    rw [((hret e a vs).mp hvs).1, List.mem_filter, decide_eq_true_eq, ht.add, ht.ret]
    exact and_comm

/-- C12: whether there is a conflict, and which conflicts are reported with which values, does not
depend on the order in which the terms arrive. -/
theorem C12_order {s : Schema} {ys ys' : List RTerm} {t t' : Trie} (hp : ys.Perm ys')
    (h : extendTrie s ys [] = .ok t) (h' : extendTrie s ys' [] = .ok t') :
    (cardinalityConflicts s t = [] ↔ cardinalityConflicts s t' = []) ∧
    (typeDisagreements s t = [] ↔ typeDisagreements s t' = []) ∧
    ∀ e a v, ((∃ vs, .addConflict e a vs ∈ cardinalityConflicts s t ∧ v ∈ vs) ↔
      (∃ vs, .addConflict e a vs ∈ cardinalityConflicts s t' ∧ v ∈ vs)) ∧
     ((∃ vs, .addRetractConflict e a vs ∈ cardinalityConflicts s t ∧ v ∈ vs) ↔
      (∃ vs, .addRetractConflict e a vs ∈ cardinalityConflicts s t' ∧ v ∈ vs)) := by
  have hm : ∀ y, y ∈ ys ↔ y ∈ ys' := fun y => hp.mem_iff
  have e1 := conflict_iff (trieOf_extend h)
  have e2 := conflict_iff (trieOf_extend h')
  have d1 := disagree_iff (trieOf_extend h)
  have d2 := disagree_iff (trieOf_extend h')
  have ec : Conflict s ys ↔ Conflict s ys' := by unfold Conflict; simp only [hm]
  refine ⟨not_iff_not.mp (by rw [← ne_eq, ← ne_eq, e1, e2, ec]),
    not_iff_not.mp (by rw [← ne_eq, ← ne_eq, d1, d2]; simp only [hm]), ?_⟩
  intro e a v
  obtain ⟨p1, p2, p3, p4⟩ := C12_lists h e a
  obtain ⟨q1, q2, q3, q4⟩ := C12_lists h' e a
  constructor
  · constructor
    · rintro ⟨vs, hvs, hv⟩
      obtain ⟨vs', hvs'⟩ := q1.mpr (by simpa only [hm] using p1.mp ⟨vs, hvs⟩)
      exact ⟨vs', hvs', (q2 vs' hvs' v).mpr ((hm _).mp ((p2 vs hvs v).mp hv))⟩
    · rintro ⟨vs, hvs, hv⟩
      obtain ⟨vs', hvs'⟩ := p1.mpr (by simpa only [hm] using q1.mp ⟨vs, hvs⟩)
      exact ⟨vs', hvs', (p2 vs' hvs' v).mpr ((hm _).mpr ((q2 vs hvs v).mp hv))⟩
  · constructor
    · rintro ⟨vs, hvs, hv⟩
      obtain ⟨vs', hvs'⟩ := q3.mpr (by simpa only [hm] using p3.mp ⟨vs, hvs⟩)
      exact ⟨vs', hvs', (q4 vs' hvs' v).mpr (by simpa only [hm] using (p4 vs hvs v).mp hv)⟩
    · rintro ⟨vs, hvs, hv⟩
      obtain ⟨vs', hvs'⟩ := p3.mpr (by simpa only [hm] using q3.mp ⟨vs, hvs⟩)
      exact ⟨vs', hvs', (p4 vs' hvs' v).mpr (by simpa only [hm] using (q4 vs hvs v).mp hv)⟩

/-- C11, C12: transactions that get as far as the checks, and fail the one or the other. -/
theorem C11_C12_example : ∃ db, Reach db ∧
    (∃ s3, Resolves db [addE e1 xOne (.long 5)] [] s3) ∧
    transactTerms db 0 [addE e1 xOne (.long 5)] [] = .err .typeDisagreements ∧
    (∃ s3, Resolves db [addT "n" xOne (str "p"), addT "n" xOne (str "q")] [tid "n"] s3) ∧
    transactTerms db 0 [addT "n" xOne (str "p"), addT "n" xOne (str "q")] [tid "n"] =
      .err .cardinalityConflicts := by
  obtain ⟨db, h, hp⟩ := reachKept_of_setup (txs := [dataTx]) (p := fun db =>
    (match db.parts.tx.allocate 1 with | .ok _ => true | _ => false) &&
    (match resolveTempIds db.schema db.store db.parts.user [addE e1 xOne (.long 5)] [] with
      | .ok _ => true | _ => false) &&
    (db.schema.attr xOne).isSome &&
    decide (transactTerms db 0 [addE e1 xOne (.long 5)] [] = .err .typeDisagreements) &&
    (match resolveTempIds db.schema db.store db.parts.user
        [addT "n" xOne (str "p"), addT "n" xOne (str "q")] [tid "n"] with
      | .ok _ => true | _ => false) &&
    decide (transactTerms db 0 [addT "n" xOne (str "p"), addT "n" xOne (str "q")] [tid "n"] =
      .err .cardinalityConflicts)) (by decide +kernel)
  simp only [Bool.and_eq_true, decide_eq_true_eq] at hp
  obtain ⟨⟨⟨⟨⟨p1, p2⟩, p3⟩, p4⟩, p5⟩, p6⟩ := hp
  have hid : ∃ x, db.parts.tx.allocate 1 = .ok x := by
    split at p1
    · exact ⟨_, by assumption⟩
    · simp at p1
  refine ⟨db, h.reach, ?_, p4, ?_, p6⟩
  · split at p2
    · rename_i s3 hs
      exact ⟨s3, hid, hs, by simpa [addE] using p3⟩
    · simp at p2
  · split at p5
    · rename_i s3 hs
      exact ⟨s3, hid, hs, by simpa [addT] using p3⟩
    · simp at p5

end Mentat
