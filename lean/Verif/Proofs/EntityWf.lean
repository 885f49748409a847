import Verif.Proofs.EntityParse
import Verif.Proofs.QueryWf
/- What the entities of any accepted text have; the parser always answers. -/
namespace Mentat
namespace EParse
open Edn EdnParse QParse

def Gives (P : α → Prop) (r : PRes α) : Prop := ∀ a rest, r = .ok a rest → P a

theorem Gives.orElse {P : α → Prop} {a : PRes α} {b : Unit → PRes α} (ha : Gives P a) (hb : Gives P (b ())) :
    Gives P (EdnParse.PRes.orElse a b) := by
  cases a with
  | fail => exact hb
  | _ => exact ha

theorem gives_word {P : Edn → Prop} {w : Text} {v : Edn} (h : P v) (s : Text) : Gives P (word w v s) := by
  intro a rest e
  unfold word at e
  split at e
  · cases e; exact h
  · simp at e

theorem gives_i64 {neg n} {rest : Text} : Gives AtomOk (i64Res neg n rest) := by
  intro a r e
  unfold i64Res at e
  split at e
  · simp at e
  · rename_i n
    simp only at e
    generalize (if neg then -(n : Int) else n) = z at e
    split at e
    · rename_i h; cases e; exact h
    · simp at e

theorem gives_fail {P : α → Prop} : Gives P (.fail : PRes α) := by intro a r e; simp at e
theorem gives_panic {P : α → Prop} : Gives P (.panic : PRes α) := by intro a r e; simp at e
theorem gives_ok {P : α → Prop} {a : α} {r : Text} (h : P a) : Gives P (.ok a r : PRes α) := by
  intro b r e; cases e; exact h

theorem gives_based (s : Text) : Gives AtomOk (basedinteger s) := by
  unfold basedinteger
  split
  · exact gives_fail
  · split
    · exact gives_fail
    · split
      · exact gives_fail
      · exact gives_i64

theorem gives_hex (s : Text) : Gives AtomOk (hexinteger s) := by
  unfold hexinteger
  split
  · exact gives_fail
  · split
    · exact gives_fail
    · exact gives_i64

theorem gives_octal (s : Text) : Gives AtomOk (octalinteger s) := by
  unfold octalinteger
  split
  · exact gives_fail
  · split
    · exact gives_fail
    · exact gives_i64

theorem gives_integer (s : Text) : Gives AtomOk (EdnParse.integer s) := by
  unfold EdnParse.integer; simp only
  split
  · exact gives_fail
  · split
    · exact gives_fail
    · exact gives_i64

theorem gives_rawInt (s : Text) : Gives AtomOk (rawInt s) :=
  (gives_based s).orElse ((gives_hex s).orElse ((gives_octal s).orElse (gives_integer s)))

theorem gives_number (s : Text) : Gives AtomOk (number s) := by
  refine Gives.orElse ?_ ((gives_based s).orElse ((gives_hex s).orElse ((gives_octal s).orElse ((gives_integer s).orElse ?_))))
  · unfold bigint; simp only
    split
    · exact gives_fail
    · split
      · exact gives_fail
      · split
        · exact gives_ok trivial
        · exact gives_panic
  · intro a r e
    have : ∃ f, a = .float f := by
      unfold EdnParse.float at e
      simp only at e
      repeat' split at e
      all_goals first | (simp at e; done) | skip
      all_goals (cases e; exact ⟨_, rfl⟩)
    obtain ⟨f, rfl⟩ := this
    trivial

/-! ### Names -/

theorem spanC_all (p : Char → Bool) (s : Text) : ∀ c ∈ (spanC p s).1, p c = true := by
  induction s with
  | nil => simp [spanC]
  | cons c r ih =>
    simp only [spanC]
    split
    · intro d hd
      rcases List.mem_cons.mp hd with rfl | hd
      · assumption
      · exact ih d hd
    · simp

theorem subsequent_ne {c : Char} (h : isSubsequent c = true ∨ c = '.') : c ≠ ':' ∧ c ≠ '/' := by
  rcases h with h | rfl
  · constructor <;> rintro rfl <;> revert h <;> decide
  · decide

theorem initial_ne {c : Char} (h : isInitial c = true) : c ≠ ':' ∧ c ≠ '/' :=
  subsequent_ne (Or.inl (by simp [isSubsequent, h]))

theorem symbolName_part {s n r : Text} (h : symbolName s = some (n, r)) : ValidPart n := by
  cases s with
  | nil => simp [symbolName] at h
  | cons c s =>
    simp only [symbolName] at h
    split at h
    · rename_i hc
      simp only [Option.some.injEq, Prod.mk.injEq] at h
      obtain ⟨rfl, -⟩ := h
      refine ⟨by simp, ?_⟩
      intro d hd
      rcases List.mem_cons.mp hd with rfl | hd
      · exact initial_ne hc
      · exact subsequent_ne (Or.inl (spanC_all _ _ d hd))
    · simp at h

theorem nsTail_all (s : Text) : ∀ c ∈ (nsTail s).1, isSubsequent c = true ∨ c = '.' := by
  induction s with
  | nil => simp [nsTail]
  | cons c r ih =>
    simp only [nsTail]
    split
    · rename_i h
      intro d hd
      rcases List.mem_cons.mp hd with rfl | hd
      · simp only [Bool.or_eq_true, Bool.and_eq_true, decide_eq_true_eq] at h
        rcases h with h | h
        · exact Or.inl h
        · exact Or.inr h.1
      · exact ih d hd
    · simp

theorem nsPart_part {s ns r : Text} (h : nsPart s = some (ns, r)) : ValidPart ns := by
  cases s with
  | nil => simp [nsPart] at h
  | cons c s =>
    simp only [nsPart] at h
    split at h
    · rename_i hc
      split at h
      · simp only [Option.some.injEq, Prod.mk.injEq] at h
        obtain ⟨rfl, -⟩ := h
        refine ⟨by simp, ?_⟩
        intro d hd
        rcases List.mem_cons.mp hd with rfl | hd
        · exact initial_ne hc
        · exact subsequent_ne (nsTail_all _ d hd)
      · simp at h
    · simp at h

theorem keyword_of_namespaced {ns n : Text} {k : NName} (h : NName.namespaced ns n = .ok k) : k.keyword = ⟨ns, n⟩ := by
  obtain ⟨h1, h2, -⟩ := new_name (o := some ns) h
  have hb : 0 < k.boundary := by
    unfold NName.ns at h1
    split at h1
    · assumption
    · simp at h1
  have hb' : k.boundary ≠ 0 := by omega
  simp only [NName.ns, hb, if_true, Option.some.injEq] at h1
  simp only [NName.name, hb', if_false] at h2
  simp [NName.keyword, NName.parts, hb, h1, h2]

theorem keyword_of_plain {n : Text} {k : NName} (h : NName.plain n = .ok k) : k.keyword = ⟨[], n⟩ := by
  obtain ⟨h1, h2, -⟩ := new_name (o := none) h
  have hb : k.boundary = 0 := by
    unfold NName.ns at h1
    split at h1
    · simp at h1
    · omega
  simp only [NName.name, hb, if_true] at h2
  simp [NName.keyword, NName.parts, hb, h2]

theorem gives_keyword (s : Text) : Gives AtomOk (EdnParse.keyword s) := by
  unfold EdnParse.keyword
  split
  · exact gives_fail
  · split
    · rename_i ns r hn
      split
      · rename_i n rest hs
        cases hk : NName.namespaced ns n with
        | ok k =>
          refine gives_ok ?_
          show KwOk k.keyword
          rw [keyword_of_namespaced hk]
          exact ⟨Or.inr (nsPart_part hn), symbolName_part hs⟩
        | err e => exact gives_panic
        | panic => exact gives_panic
      · exact gives_fail
    · split
      · rename_i n rest hs
        cases hk : NName.plain n with
        | ok k =>
          refine gives_ok ?_
          show KwOk k.keyword
          rw [keyword_of_plain hk]
          exact ⟨Or.inl rfl, symbolName_part hs⟩
        | err e => exact gives_panic
        | panic => exact gives_panic
      · exact gives_fail

theorem digitTo_value {hi : Char} {s r : Text} {n : Nat} (h : digitTo hi s = some (n, r)) (hh : hi ≤ '9') : n ≤ 9 := by
  cases s with
  | nil => simp [digitTo] at h
  | cons c s =>
    simp only [digitTo] at h
    split at h
    · rename_i hc
      simp only [Option.some.injEq, Prod.mk.injEq] at h
      simp only [Bool.and_eq_true, decide_eq_true_eq] at hc
      have hd : isDigit c = true := by
        simp only [isDigit, Bool.and_eq_true, decide_eq_true_eq]; exact ⟨hc.1, Char.le_trans hc.2 hh⟩
      have h9 : c ≤ '9' := Char.le_trans hc.2 hh
      have : c.toNat ≤ 57 := h9
      rw [← h.1]
      simp only [charDigit, hd, if_true]; omega
    · simp at h

theorem twoDigits_value {hi : Char} {s r : Text} {n : Nat} (h : twoDigits hi s = some (n, r)) (hh : hi ≤ '9') : n < 100 := by
  simp only [twoDigits, Option.bind_eq_some_iff, Option.map_eq_some_iff] at h
  obtain ⟨a, h1, b, h2, h3⟩ := h
  have := digitTo_value h1 hh
  have := digitTo_value h2 (by decide)
  simp at h3
  omega

/-- A number of `w` digits is below the base to the power `w`. -/
theorem radixFrom_lt {b : Nat} (s : Text) (a : Nat) {n : Nat} (h : radixFrom b (some a) s = some n) : n < (a + 1) * b ^ s.length := by
  induction s generalizing a with
  | nil => simp [radixFrom] at h; simp; omega
  | cons c s ih =>
    rw [radixFrom, List.foldl_cons, Option.bind_some] at h
    split at h
    · rename_i hc
      have := ih (a * b + charDigit c) h
      refine Nat.lt_of_lt_of_le this ?_
      rw [List.length_cons, Nat.pow_succ, Nat.mul_comm (b ^ s.length) b, ← Nat.mul_assoc]
      apply Nat.mul_le_mul_right
      rw [Nat.add_mul]; omega
    · have hn : ∀ s : Text, radixFrom b none s = none := by
        intro s
        induction s with
        | nil => rfl
        | cons c s ih => rw [radixFrom, List.foldl_cons]; exact ih
      have := hn s
      rw [radixFrom] at this
      rw [this] at h; simp at h

theorem dayNumber_bound {t : Date} (h : t.Valid) : 365 * t.y - 719468 - 400 + (t.y - 4) / 4 - t.y / 100 + (t.y - 400) / 400 ≤ t.dayNumber ∧
    t.dayNumber ≤ 365 * t.y + t.y / 4 - (t.y - 100) / 100 + t.y / 400 + 400 - 719468 := by
  obtain ⟨h1, h2, h3, h4⟩ := h
  have h5 : t.d ≤ 31 := by unfold Date.daysIn at h4; split at h4 <;> split at h4 <;> omega
  rw [Date.dayNumber_eq]
  unfold Date.marchDay Date.leaps
  split <;> omega

theorem gives_inst (s : Text) : Gives AtomOk (inst s) := by
  have units : ∀ tag k, k = 1000 ∨ k = 1000000 → Gives AtomOk (instUnits tag k s) := by
    intro tag k hk
    unfold instUnits
    split
    · exact gives_fail
    · split
      · exact gives_fail
      · split
        · exact gives_panic
        · rename_i n _
          split
          · rename_i hn
            refine gives_ok ?_
            obtain ⟨h1, h2⟩ := hn
            obtain ⟨hv, he⟩ := Date.ofDayNumber_spec (((n / k : Nat) : Int) / 86400)
            have hb := dayNumber_bound hv
            rw [he] at hb
            simp only [maxYear] at h2
            have h0 : (0 : Int) ≤ ((n / k : Nat) : Int) := Int.natCast_nonneg _
            clear h1 he hv
            have hs : ((n / k : Nat) : Int) < 9000000000000 := by
              revert hb h0 h2
              generalize ((n / k : Nat) : Int) = p
              generalize (Date.ofDayNumber (p / 86400)).y = y
              intro h2 hb h0
              have : p / 86400 ≤ 104000000 := by omega
              omega
            clear hb h2
            have e : (2 : Int) ^ 63 = 9223372036854775808 := by decide
            simp only [AtomOk, e]
            have hm : n % k * (1000000000 / k) < 1000000000 := by
              rcases hk with rfl | rfl <;> omega
            generalize n % k * (1000000000 / k) = q at *
            generalize n / k = p at *
            refine ⟨by omega, by omega, by omega, by omega⟩
          · exact gives_panic
  unfold inst
  refine (units _ _ (Or.inl rfl)).orElse ((units _ _ (Or.inr rfl)).orElse ?_)
  unfold instString
  split
  · rename_i t rest h
    refine gives_ok ?_
    simp only [Option.bind_eq_some_iff, Option.map_eq_some_iff] at h
    obtain ⟨_, -, _, -, ⟨_, _⟩, h, _, -, he⟩ := h
    simp only [Prod.mk.injEq] at he
    obtain ⟨rfl, -⟩ := he
    simp only [stamp, Option.bind_eq_some_iff, Option.map_eq_some_iff] at h
    obtain ⟨⟨y1, _⟩, a1, ⟨y2, _⟩, a2, _, -, _, -, _, -, _, -, _, -, _, -, _, -, _, -, _, -, _, -, ⟨n, _⟩, a13, _, -, a15⟩ := h
    have b1 := twoDigits_value a1 (by decide)
    have b2 := twoDigits_value a2 (by decide)
    have b3 : n < 1000000000 := by
      unfold nanosPart at a13
      split at a13
      · split at a13
        · simp at a13
        · simp only [Option.map_eq_some_iff] at a13
          obtain ⟨m, a, b⟩ := a13
          have := radixFrom_lt _ 0 a
          simp at b
          rw [List.length_take] at this
          have hp := Nat.lt_of_lt_of_le this (Nat.mul_le_mul_left _ (Nat.pow_le_pow_right (by decide) (Nat.min_le_left _ _)))
          omega
      · simp at a13; omega
    simp only [Prod.mk.injEq] at a15
    have a15 := a15.1
    unfold mkInstant at a15
    split at a15
    · rename_i hc
      obtain ⟨c1, c2, c3, c4, c5, c6, c7, c8, c9⟩ := hc
      simp only [Option.some.injEq] at a15
      have hv : Date.Valid ⟨((100 * y1 + y2 : Nat) : Int), _, _⟩ := ⟨Int.ofNat_le.mpr c1, Int.ofNat_le.mpr c2, Int.ofNat_le.mpr c3, c4⟩
      generalize hD : Date.dayNumber _ = D at a15
      have hb := dayNumber_bound hv
      rw [hD] at hb
      simp only at hb
      have hlo : -1000000 ≤ D := by omega
      have hhi : D ≤ 4000000 := by omega
      clear hb hv hD
      subst a15
      simp only [AtomOk]
      refine ⟨by omega, ?_, ?_, ?_⟩
      · split <;> omega
      · split <;> omega
      · split <;> omega
    · simp at a15
  · exact gives_fail

theorem hexRun_size {n : Nat} {s t r : Text} (h : hexRun n s = some (t, r)) : t.length = n := by
  induction n generalizing s t r with
  | zero => simp [hexRun] at h; simp [h.1]
  | succ n ih =>
    cases s with
    | nil => simp [hexRun] at h
    | cons c s =>
      simp only [hexRun] at h
      split at h
      · simp only [Option.map_eq_some_iff] at h
        obtain ⟨a, h1, h2⟩ := h
        have := ih h1
        simp at h2
        rw [← h2.1]; simp [this]
      · simp at h

theorem gives_uuid (s : Text) : Gives AtomOk (EdnParse.uuid s) := by
  unfold EdnParse.uuid
  split
  · rename_i t rest h
    simp only [Option.bind_eq_some_iff, Option.map_eq_some_iff] at h
    obtain ⟨_, -, _, -, _, a3, _, -, _, a5, _, -, _, a7, _, -, _, a9, _, -, _, a11, _, -, a13⟩ := h
    have b1 := hexRun_size a3
    have b2 := hexRun_size a5
    have b3 := hexRun_size a7
    have b4 := hexRun_size a9
    have b5 := hexRun_size a11
    simp only [Prod.mk.injEq] at a13
    split
    · rename_i u hu
      have := radixFrom_lt _ 0 hu
      rw [← a13.1] at this
      simp only [List.length_append, b1, b2, b3, b4, b5] at this
      exact gives_ok (by simpa [AtomOk] using this)
    · exact gives_panic
  · exact gives_fail

theorem gives_atom (s : Text) : Gives AtomOk (atom s) := by
  unfold atom
  refine (gives_word trivial s).orElse (Gives.orElse ?_ (Gives.orElse ?_ ((gives_word trivial s).orElse ((gives_word trivial s).orElse
    ((gives_number s).orElse ((gives_inst s).orElse ((gives_uuid s).orElse (Gives.orElse ?_ ((gives_keyword s).orElse ?_)))))))))
  · unfold nan
    split
    · exact gives_fail
    · split
      · exact gives_fail
      · exact gives_word trivial _
  · unfold infinity
    split
    · exact gives_fail
    · split
      · exact gives_fail
      · split
        · exact gives_word trivial _
        · exact gives_word trivial _
        · exact gives_fail
  · unfold EdnParse.text
    split
    · split
      · exact gives_ok trivial
      · exact gives_fail
    · exact gives_fail
  · unfold symbol
    split
    · split
      · unfold EdnParse.build
        split
        · exact gives_ok trivial
        · exact gives_panic
      · exact gives_fail
    · split
      · exact gives_ok trivial
      · exact gives_fail

theorem gives_close {c : Char} {r : PRes (List Edn)} {f : List Edn → Edn} (hf : ∀ l, AtomOk (f l)) : Gives AtomOk (close c r f) := by
  intro a rest e
  unfold close at e
  split at e
  · split at e
    · cases e; exact hf _
    · simp at e
  all_goals simp at e

theorem gives_value (n : Nat) (s : Text) : Gives AtomOk (value n s) := by
  cases n with
  | zero => intro a r e; simp [value] at e
  | succ n =>
    have h : Gives AtomOk (EdnParse.PRes.orElse (atom (skip s)) fun _ => collection n (skip s)) := by
      refine (gives_atom _).orElse ?_
      cases n with
      | zero => intro a r e; simp [collection] at e
      | succ n =>
        unfold collection
        split
        · exact gives_close fun _ => trivial
        · exact gives_close fun _ => trivial
        · exact gives_close fun _ => trivial
        · exact gives_close fun _ => trivial
        · exact gives_fail
    intro a r e
    rw [value] at e
    split at e
    · rename_i hv; cases e; exact h _ _ hv
    · rename_i hv; exact h _ _ e

section

theorem and_gives {m : Nat} {P Q : α → Prop} {r : PRes α} (h : Below m P r) (hg : Gives Q r) :
    Below m (fun a => P a ∧ Q a) r := by
  cases r with
  | ok a r => exact ⟨h.1, h.2, hg a r rfl⟩
  | stuck => exact h
  | _ => trivial

theorem val_ok (s : Text) : Below s.length AtomOk (val s) :=
  Below.mono (and_gives (val_below s) (gives_value _ s)) (Nat.le_refl _) fun _ h => h.2

theorem nsKeyword_ok (s : Text) : Below s.length (fun k => IdWf (.ident k.keyword)) (rawNsKeyword s) := by
  refine Below.mono (and_gives (Q := fun k => IdWf (.ident k.keyword)) (nsKeyword_below s) ?_) (Nat.le_refl _) fun _ h => h.2
  intro k rest e
  unfold rawNsKeyword QParse.expect at e
  split at e
  · simp only at e
    split at e
    · rename_i ns r hn
      split at e
      · rename_i n rest hs
        cases hk : NName.namespaced ns n with
        | ok k =>
          simp only [hk, EdnParse.build, QParse.accept, QParse.bind, kwOf, PRes.ok.injEq] at e
          obtain ⟨rfl, -⟩ := e
          show IdWf (.ident k.keyword)
          rw [keyword_of_namespaced hk]
          exact ⟨nsPart_part hn, symbolName_part hs⟩
        | err e' => simp [hk, EdnParse.build, QParse.accept, QParse.bind] at e
        | panic => simp [hk, EdnParse.build, QParse.accept, QParse.bind] at e
      · simp at e
    · simp at e
  · simp at e

theorem rawInt_shrinks (s : Text) : Shrinks s (rawInt s) := by
  unfold rawInt
  refine shrinks_orElse ?_ (shrinks_orElse ?_ (shrinks_orElse ?_ ?_))
  · unfold basedinteger
    split
    · exact shrinks_fail
    · rename_i b r hv
      have := validbase_length hv
      split
      · exact shrinks_fail
      · rename_i r' hl
        have := lit_length hl
        split
        · exact shrinks_fail
        · have := spanC_length isAlnum r'
          exact shrinks_i64 (by omega)
  · unfold hexinteger
    split
    · exact shrinks_fail
    · rename_i r hl
      have := lit_length hl
      split
      · exact shrinks_fail
      · have := spanC_length isHex r
        exact shrinks_i64 (by simp at *; omega)
  · unfold octalinteger
    split
    · exact shrinks_fail
    · rename_i r hl
      have := lit_length hl
      split
      · exact shrinks_fail
      · have := spanC_length isOctal r
        exact shrinks_i64 (by simp at *; omega)
  · unfold EdnParse.integer; simp only
    split
    · exact shrinks_fail
    · rename_i h
      split
      · exact shrinks_fail
      · have := spanC_lt h
        have := optSign_length s
        exact shrinks_i64 (by omega)

theorem Shrinks.below {s : Text} {r : PRes α} (h : Shrinks s r) : Below s.length (fun _ => True) r := by
  cases r with
  | ok a r => exact ⟨h.2 a r rfl, trivial⟩
  | stuck => exact absurd rfl h.1
  | _ => trivial

theorem rawInt_ok (s : Text) : Below s.length IdWf (accept (rawInt s) entidOf) := by
  refine Below.accept (and_gives (Shrinks.below (rawInt_shrinks s)) (gives_rawInt s)) ?_
  rintro v e ⟨-, h⟩ he
  cases v <;> simp only [entidOf, reduceCtorEq, Option.some.injEq] at he
  subst he
  exact h

theorem entid_ok (s : Text) : Below s.length IdWf (entid s) :=
  (rawInt_ok s).orElse ((nsKeyword_ok s).bind fun _ _ ht hk => below_ok ht hk)

theorem forwardEntid_ok (s : Text) : Below s.length IdWf (forwardEntid s) := by
  refine (rawInt_ok s).orElse (Below.bind (P := fun k => IdWf (.ident k.keyword)) ((nsKeyword_ok s).accept ?_) fun _ _ ht hk => below_ok ht hk)
  intro k k' hk h
  rw [(fwdOf_ok h).1]; exact hk

theorem reversed_valid {k k' : NName} (h : k.toReversed = .ok k') (hb : k.isBackward = true) (hk : IdWf (.ident k.keyword)) :
    IdWf (.ident k'.keyword) := by
  have hb : k.name.head? = some '_' := by simpa [NName.isBackward] using hb
  unfold NName.toReversed at h
  rw [if_pos hb] at h
  have hn := (new_name h).2.2
  obtain ⟨h1, h2⟩ := hk
  by_cases hp : 0 < k.boundary
  · have hp' : k.boundary ≠ 0 := by omega
    have e1 : k.ns = some k.keyword.ns := by simp [NName.ns, NName.keyword, NName.parts, hp]
    have e2 : k.name = k.keyword.name := by simp [NName.name, NName.keyword, NName.parts, hp, hp']
    rw [e1, e2] at h
    rw [keyword_of_namespaced h]
    exact ⟨h1, ⟨by rw [e2] at hn; exact hn, fun c hc => h2.2 c (List.mem_of_mem_drop hc)⟩⟩
  · exact absurd (by simp [NName.keyword, NName.parts, hp]) h1.1

theorem backwardEntid_ok (s : Text) : Below s.length IdWf (backwardEntid s) := by
  unfold backwardEntid
  refine Below.bind (P := fun k => IdWf (.ident k.keyword) ∧ k.isBackward = true) ((nsKeyword_ok s).accept ?_) fun k t ht hk => ?_
  · intro k k' hk h
    unfold bwdOf at h
    split at h
    · cases h; exact ⟨hk, by assumption⟩
    · simp at h
  · cases hr : k.toReversed with
    | ok k' => exact below_ok ht (reversed_valid hr hk.2 hk.1)
    | err e => trivial
    | panic => trivial

theorem lookupRef_ok (s : Text) : Below s.length (fun p => IdWf p.1 ∧ AtomOk p.2) (lookupRef s) := by
  unfold lookupRef
  refine Below.expect fun t ht => Below.expect fun u hu => ?_
  have h1 := skip_le t
  have h2 := skip_le u
  refine (entid_ok (skip u)).bind fun a w hw ha => (val_ok (skip w)).bind fun v x hx hv => Below.expect fun y hy => ?_
  have h3 := skip_le w
  have h4 := skip_le x
  simp at ht hy
  exact below_ok (by omega) ⟨ha, hv⟩

theorem txFunction_ok (s : Text) : Below s.length (fun f => f ≠ []) (txFunction s) := by
  unfold txFunction
  refine Below.expect fun t ht => ?_
  simp at ht
  have h1 := skip_le t
  split
  · rename_i n r hs
    have := symbolName_length hs
    refine Below.expect fun y hy => ?_
    have h2 := skip_le r
    exact below_ok (by omega) (symbolName_part hs).1
  · trivial

theorem text_below (s : Text) : Below s.length (fun _ => True) (EdnParse.text s) := by
  refine Shrinks.below ?_
  unfold EdnParse.text
  split
  · split
    · rename_i hl
      have := textTail_length hl
      exact shrinks_ok (by simp; omega)
    · exact shrinks_fail
  · exact shrinks_fail

theorem entityPlace_ok (s : Text) : Below s.length EntWf (entityPlace s) := by
  unfold entityPlace
  refine Below.orElse ?_ (Below.orElse ?_ (Below.orElse ?_ ?_))
  · refine Below.bind (P := fun _ => True) ((text_below s).accept fun _ _ _ _ => trivial) fun t r hr _ => below_ok hr ⟨t, rfl⟩
  · exact (entid_ok s).bind fun e r hr he => below_ok hr he
  · exact (lookupRef_ok s).bind fun p r hr hp => below_ok hr hp
  · exact (txFunction_ok s).bind fun p r hr hp => below_ok hr hp

theorem atomOf_isAtom {v w : Edn} (h : atomOf v = some w) : w = v ∧ IsAtom v := by
  cases v <;> simp only [atomOf, reduceCtorEq, Option.some.injEq] at h <;>
    exact ⟨h.symm, by simp, by simp, by simp, by simp⟩

theorem mapOf_mem {l : List (EntidOrIdent × V)} {p} (h : p ∈ mapOf l) : p ∈ l := by
  have key : ∀ (l m : List (EntidOrIdent × V)), p ∈ l.foldl (fun m p => mapInsert p.1 p.2 m) m → p ∈ l ∨ p ∈ m := by
    intro l
    induction l with
    | nil => intro m h; exact Or.inr h
    | cons q l ih =>
      intro m h
      rcases ih _ h with h | h
      · exact Or.inl (by simp [h])
      · rcases mapInsert_mem h with h | h
        · exact Or.inl (by simp [h])
        · exact Or.inr h
  rcases key l [] h with h | h
  · exact h
  · simp at h

theorem mapNotation_ok {vp : Text → PRes (ValuePlace Edn)} (s : Text)
    (hp : ∀ t : Text, t.length < s.length → Below t.length PlaceWf (vp t)) :
    Below s.length (fun m => Ordered m ∧ ∀ p ∈ m, IdWf p.1 ∧ PlaceWf p.2) (mapNotation vp s) := by
  unfold mapNotation
  refine Below.expect fun t ht => ?_
  simp at ht
  have h1 := skip_le t
  refine (below_many (P := fun p : EntidOrIdent × ValuePlace Edn => IdWf p.1 ∧ PlaceWf p.2) (s := skip t) fun u hu => ?_).bind
    fun l u hu hl => Below.expect fun w hw => ?_
  · unfold pair
    refine (entid_ok u).bind fun k x hx hk => ?_
    have h2 := skip_le x
    exact (hp (skip x) (by omega)).bind fun v y hy hv => below_ok (by omega) ⟨hk, hv⟩
  · simp at hw
    have h2 := skip_le u
    exact below_ok (by omega) ⟨mapOf_ordered l, fun p hp => hl p (mapOf_mem hp)⟩

theorem placeN_ok (n : Nat) (s : Text) (h : s.length < n) : Below s.length PlaceWf (placeN n s) := by
  induction n generalizing s with
  | zero => omega
  | succ n ih =>
    rw [placeN]
    have h0 := skip_le s
    refine Below.orElse ?_ (Below.orElse ?_ (Below.orElse ?_ (Below.orElse ?_ ?_)))
    · refine (lookupRef_ok (skip s)).bind fun p r hr hp => ?_
      have := skip_le r
      exact below_ok (by omega) (.lookupRef hp.1 hp.2)
    · refine (txFunction_ok (skip s)).bind fun p r hr hp => ?_
      have := skip_le r
      exact below_ok (by omega) (.txFunction hp)
    · refine Below.expect fun t ht => ?_
      simp at ht
      have h1 := skip_le t
      refine (below_many (P := PlaceWf) (s := skip t) fun u hu => ih u (by omega)).bind fun l u hu hl => Below.expect fun w hw => ?_
      simp at hw
      have h2 := skip_le u
      have h3 := skip_le w
      exact below_ok (by omega) (.vector hl)
    · refine (mapNotation_ok (skip s) fun t ht => ih t (by omega)).bind fun m r hr hm => ?_
      have := skip_le r
      exact below_ok (by omega) (.map hm.1 (fun p hp => (hm.2 p hp).1) (fun p hp => (hm.2 p hp).2))
    · refine Below.bind (P := fun v => IsAtom v ∧ AtomOk v) ((val_ok (skip s)).accept fun v w hv hw => ?_) fun v r hr hv => ?_
      · obtain ⟨rfl, ha⟩ := atomOf_isAtom hw
        exact ⟨ha, hv⟩
      · have := skip_le r
        exact below_ok (by omega) (.atom hv.1 hv.2)

theorem place_ok (s : Text) : Below s.length PlaceWf (place s) := placeN_ok _ s (by omega)

theorem op_below (s : Text) : Below s.length (fun _ => True) (op s) := by
  unfold op
  refine Below.orElse (Below.expect fun t ht => ?_) (Below.expect fun t ht => ?_)
  · simp at ht; exact below_ok (by omega) trivial
  · simp at ht; exact below_ok (by omega) trivial

theorem entity_ok (s : Text) : Below s.length EntityWf (entity s) := by
  unfold entity
  have h0 := skip_le s
  refine Below.orElse ?_ (Below.orElse ?_ ?_)
  · refine Below.expect fun t ht => ?_
    simp at ht
    have h1 := skip_le t
    refine (op_below (skip t)).bind fun o r hr _ => ?_
    have h2 := skip_le r
    refine (entityPlace_ok (skip r)).bind fun e u hu he => ?_
    have h3 := skip_le u
    refine (forwardEntid_ok (skip u)).bind fun a w hw ha => ?_
    have h4 := skip_le w
    refine (place_ok (skip w)).bind fun v x hx hv => Below.expect fun y hy => ?_
    have h5 := skip_le x
    have h6 := skip_le y
    simp at hy
    exact below_ok (by omega) ⟨he, ha, hv⟩
  · refine Below.expect fun t ht => ?_
    simp at ht
    have h1 := skip_le t
    refine (op_below (skip t)).bind fun o r hr _ => ?_
    have h2 := skip_le r
    refine (place_ok (skip r)).bind fun v u hu hv => ?_
    have h3 := skip_le u
    refine (backwardEntid_ok (skip u)).bind fun a w hw ha => ?_
    have h4 := skip_le w
    refine (entityPlace_ok (skip w)).bind fun e x hx he => Below.expect fun y hy => ?_
    have h5 := skip_le x
    have h6 := skip_le y
    simp at hy
    exact below_ok (by omega) ⟨he, ha, hv⟩
  · refine (mapNotation_ok (skip s) fun t _ => place_ok t).bind fun m r hr hm => ?_
    have := skip_le r
    exact below_ok (by omega) hm

theorem entities_ok (s : Text) : Below s.length (fun es => ∀ e ∈ es, EntityWf e) (entities s) := by
  unfold entities
  have h0 := skip_le s
  refine Below.expect fun t ht => ?_
  simp at ht
  have h1 := skip_le t
  refine (below_many (P := EntityWf) (s := skip t) fun u _ => entity_ok u).bind fun l u hu hl => Below.expect fun w hw => ?_
  simp at hw
  have h2 := skip_le u
  have h3 := skip_le w
  exact below_ok (by omega) hl

theorem parseEntities_ok (s : Text) : parseEntities s ≠ .stuck ∧
    ∀ es rest, parseEntities s = .ok es rest → rest = [] ∧ ∀ e ∈ es, EntityWf e := by
  have h := entities_ok s
  unfold parseEntities
  split
  · rename_i es he
    rw [he] at h
    refine ⟨by simp, ?_⟩
    rintro es' rest ⟨⟩
    exact ⟨rfl, h.2⟩
  · simp
  · rename_i r h1 h2
    cases hr : entities s with
    | ok es rest =>
      cases rest with
      | nil => exact absurd hr (h1 es)
      | cons c t => exact absurd hr (h2 es _)
    | fail => simp
    | panic => simp
    | stuck => rw [hr] at h; exact h.elim
end

end EParse
end Mentat
