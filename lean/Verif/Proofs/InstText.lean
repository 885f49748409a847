import Verif.Model.EdnParse
import Verif.Proofs.Calendar
/- Reading the texts of instants and UUIDs. -/
namespace Mentat
open Edn EdnParse

theorem hexChar_spec {d : Nat} (h : d < 16) : isLowHex (hexChar d) = true ∧ charDigit (hexChar d) = d ∧
    (d < 10 → isDigit (hexChar d) = true) := by
  have : ∀ d < 16, isLowHex (hexChar d) = true ∧ charDigit (hexChar d) = d ∧ (d < 10 → isDigit (hexChar d) = true) := by
    decide
  exact this d h

theorem padded_length (b w n : Nat) : (padded b w n).length = w := by
  induction w generalizing n with
  | zero => rfl
  | succ w ih => simp [padded, ih]

theorem padded_mem {b w n : Nat} (hb : b ≤ 16) (hb0 : 0 < b) {c : Char} (h : c ∈ padded b w n) : ∃ d, d < b ∧ c = hexChar d := by
  induction w generalizing n with
  | zero => simp [padded] at h
  | succ w ih =>
    simp only [padded, List.mem_append, List.mem_singleton] at h
    rcases h with h | rfl
    · exact ih h
    · exact ⟨_, Nat.mod_lt _ hb0, rfl⟩

theorem padded_digits {w n : Nat} : ∀ c ∈ padded 10 w n, isDigit c = true := by
  intro c h
  obtain ⟨d, hd, rfl⟩ := padded_mem (by decide) (by decide) h
  exact (hexChar_spec (by omega)).2.2 hd

theorem padded_hex {w n : Nat} : ∀ c ∈ padded 16 w n, isLowHex c = true := by
  intro c h
  obtain ⟨d, hd, rfl⟩ := padded_mem (by decide) (by decide) h
  exact (hexChar_spec hd).1

/-- The value of digits after a number. -/
def radixFrom (b : Nat) (a : Option Nat) (s : Text) : Option Nat :=
  s.foldl (fun a c => a.bind fun n => if charDigit c < b then some (n * b + charDigit c) else none) a

theorem radixFrom_append (b a) (s t : Text) : radixFrom b a (s ++ t) = radixFrom b (radixFrom b a s) t := by
  simp [radixFrom]

theorem radixFrom_padded {b : Nat} (hb : b ≤ 16) (hb0 : 0 < b) (a w n : Nat) :
    radixFrom b (some a) (padded b w n) = some (a * b ^ w + n % b ^ w) := by
  induction w generalizing n with
  | zero => simp [padded, radixFrom, Nat.mod_one]
  | succ w ih =>
    rw [padded, radixFrom_append, ih]
    have h := Nat.mod_lt n hb0
    have := (hexChar_spec (d := n % b) (by omega)).2.1
    simp only [radixFrom, List.foldl_cons, List.foldl_nil, Option.bind_some, this, if_pos h]
    congr 1
    have hp := Nat.mod_mul (x := n) (a := b) (b := b ^ w)
    rw [Nat.pow_succ, Nat.mul_comm (b ^ w) b, hp, Nat.add_mul, Nat.mul_comm b (b ^ w), Nat.mul_assoc, Nat.mul_comm (n / b % b ^ w) b]
    omega

theorem lit_self (p r : Text) : lit p (p ++ r) = some r := by
  induction p with
  | nil => rfl
  | cons c p ih => simp [lit, ih]

theorem digitTo_hex {hi : Char} {k d : Nat} (hk : k < 10) (hhi : hi = hexChar k) (hd : d < 10) (r : Text) :
    digitTo hi (hexChar d :: r) = if d ≤ k then some (d, r) else none := by
  have : ∀ k < 10, ∀ d < 10, (decide ('0' ≤ hexChar d) && decide (hexChar d ≤ hexChar k)) = decide (d ≤ k) := by decide
  have h := this k hk d hd
  subst hhi
  simp only [digitTo, h, (hexChar_spec (d := d) (by omega)).2.1, decide_eq_true_eq]

theorem twoDigits_padded {hi : Char} {k n : Nat} (hk : k < 10) (hhi : hi = hexChar k) (hn : n < 10 * (k + 1)) (r : Text) :
    twoDigits hi (padded 10 2 n ++ r) = some (n, r) := by
  have h1 : padded 10 2 n ++ r = hexChar (n / 10 % 10) :: hexChar (n % 10) :: r := by simp [padded]
  rw [h1, twoDigits, digitTo_hex hk hhi (by omega), if_pos (by omega)]
  simp only [Option.bind_some]
  rw [digitTo_hex (k := 9) (by decide) (by decide) (by omega), if_pos (by omega)]
  simp; omega

theorem padded_four (n : Nat) (r : Text) : padded 10 4 n ++ r = padded 10 2 (n / 100) ++ (padded 10 2 n ++ r) := by
  simp [padded, Nat.div_div_eq_div_mul]

theorem spanC_stop {p : Char → Bool} {s rest : Text} (h : ∀ c ∈ s, p c = true)
    (hr : ∀ c t, rest = c :: t → p c = false) : spanC p (s ++ rest) = (s, rest) := by
  induction s with
  | nil => cases rest with
    | nil => rfl
    | cons c t => simp [spanC, hr c t rfl]
  | cons c s ih =>
    have := ih fun d hd => h d (by simp [hd])
    simp [spanC, h c (by simp), this]

/-- A fraction is read as its first nine digits. -/
theorem nanosPart_digits {s rest : Text} (hs : s ≠ []) (h : ∀ c ∈ s, isDigit c = true)
    (hr : ∀ c t, rest = c :: t → isDigit c = false) :
    nanosPart ('.' :: (s ++ rest)) = (radixValue 10 ((s ++ List.replicate 9 '0').take 9)).map fun n => (n, rest) := by
  rw [nanosPart, spanC_stop h hr]
  simp [hs]

theorem radix_zeros (a k : Nat) : radixFrom 10 (some a) (List.replicate k '0') = some (a * 10 ^ k) := by
  induction k generalizing a with
  | zero => simp [radixFrom]
  | succ k ih =>
    rw [List.replicate_succ, radixFrom, List.foldl_cons]
    have : charDigit '0' = 0 := by decide
    simp only [Option.bind_some, this]
    have h2 := ih (a * 10)
    unfold radixFrom at h2
    simp [h2, Nat.pow_succ, Nat.mul_assoc, Nat.mul_comm]

theorem nanosPart_frac {n : Nat} (hn : n < 1000000000) (r : Text) :
    nanosPart (fracText n ++ 'Z' :: r) = some (n, 'Z' :: r) := by
  have key : ∀ w m, w ≤ 9 → 0 < w → m < 10 ^ w → m * 10 ^ (9 - w) = n →
      nanosPart (('.' :: padded 10 w m) ++ 'Z' :: r) = some (n, 'Z' :: r) := by
    intro w m hw h0 hm he
    have hne : padded 10 w m ≠ [] := by
      intro e; have := padded_length 10 w m; rw [e] at this; simp at this; omega
    rw [List.cons_append, nanosPart_digits hne padded_digits (by rintro c t ⟨⟩; decide)]
    have ht : (padded 10 w m ++ List.replicate 9 '0').take 9 = padded 10 w m ++ List.replicate (9 - w) '0' := by
      rw [List.take_append, padded_length, List.take_replicate, List.take_of_length_le (by rw [padded_length]; exact hw),
        Nat.min_eq_left (by omega)]
    rw [ht, show radixValue 10 _ = radixFrom 10 (some 0) _ from rfl, radixFrom_append, radixFrom_padded (by decide) (by decide), radix_zeros,
      Nat.mod_eq_of_lt hm]
    simp [he]
  unfold fracText
  split
  · rename_i h; subst h; rfl
  · split
    · exact key 3 _ (by decide) (by decide) (by omega) (by omega)
    · split
      · exact key 6 _ (by decide) (by decide) (by omega) (by omega)
      · exact key 9 _ (by decide) (by decide) (by omega) (by omega)

theorem lit_one (c : Char) (r : Text) : lit [c] (c :: r) = some r := by simp [lit]

/-- The fields of a text are read as the numbers they are. -/
theorem stamp_padded {y m d h mi s n : Nat} (hy : y < 10000) (hm : m < 30) (hd : d < 40) (hh : h < 30) (hmi : mi < 60) (hs : s < 70)
    {rest r : Text} {off : Int} {f : Text} (hf : nanosPart (f ++ rest) = some (n, rest)) (ho : offsetPart rest = some (off, r)) :
    stamp (padded 10 4 y ++ '-' :: (padded 10 2 m ++ '-' :: (padded 10 2 d ++ 'T' :: (padded 10 2 h ++ ':' ::
      (padded 10 2 mi ++ ':' :: (padded 10 2 s ++ (f ++ rest))))))) = some (mkInstant y m d h mi s n off, r) := by
  have p2 : padded 10 2 y = padded 10 2 (y % 100) := by
    simp only [padded]
    rw [show y % 100 / 10 % 10 = y / 10 % 10 by omega, show y % 100 % 10 = y % 10 by omega]
  rw [padded_four, p2]
  unfold stamp
  rw [twoDigits_padded (k := 9) (by decide) (by decide) (by omega)]
  simp only [Option.bind_some]
  rw [twoDigits_padded (k := 9) (by decide) (by decide) (by omega)]
  simp only [Option.bind_some, lit_one]
  rw [twoDigits_padded (k := 2) (by decide) (by decide) (by omega)]
  simp only [Option.bind_some, lit_one]
  rw [twoDigits_padded (k := 3) (by decide) (by decide) (by omega)]
  simp only [Option.bind_some, lit_one]
  rw [twoDigits_padded (k := 2) (by decide) (by decide) (by omega)]
  simp only [Option.bind_some, lit_one]
  rw [twoDigits_padded (k := 5) (by decide) (by decide) (by omega)]
  simp only [Option.bind_some, lit_one]
  rw [twoDigits_padded (k := 6) (by decide) (by decide) (by omega)]
  simp only [Option.bind_some, hf, ho, Option.map_some]
  rw [show 100 * (y / 100) + y % 100 = y by omega]

/-- The instants whose text can be read: years of four digits, from 0000-01-01 to 9999-12-31, and leap seconds only where chrono
puts them, after the last second of a minute. -/
def DateTime.Written (t : DateTime) : Prop :=
  -719528 * 86400 ≤ t.secs ∧ t.secs < 2932897 * 86400 ∧ 0 ≤ t.nanos ∧ t.nanos < 2000000000 ∧
  (1000000000 ≤ t.nanos → t.secs % 60 = 59)

instance (t : DateTime) : Decidable t.Written := inferInstanceAs (Decidable (_ ∧ _))

theorem year_bounds {n : Int} (h0 : -719528 ≤ n) (h1 : n < 2932897) : 0 ≤ (Date.ofDayNumber n).y ∧ (Date.ofDayNumber n).y < 10000 := by
  obtain ⟨hv, hn⟩ := Date.ofDayNumber_spec n
  obtain ⟨y, mp, a1, a2, a3, a4, a5, a6, a7, a8⟩ := Date.valid_march hv
  obtain ⟨c1, c2, c3, c4⟩ := Date.marchDay_bounds a1 a2 a3 a4 a5 fun e => (a6 e).1
  rw [hn] at a8
  have hmd : 10 ≤ mp → 306 ≤ Date.marchDay mp (Date.ofDayNumber n).d := by intro h; unfold Date.marchDay; omega
  have hmd' : mp < 10 → Date.marchDay mp (Date.ofDayNumber n).d ≤ 305 := by intro h; unfold Date.marchDay; omega
  generalize Date.marchDay mp (Date.ofDayNumber n).d = q at *
  have e : (Date.ofDayNumber n).y = if mp < 10 then y else y + 1 := by rw [a7]; split <;> rfl
  rw [e]
  have up : 9999 ≤ y → Date.leaps 9999 ≤ Date.leaps y := by
    intro h
    have := Date.leaps_mono 9999 (y - 9999).toNat
    rwa [show (9999 : Int) + ((y - 9999).toNat : Int) = y by omega] at this
  have down : y ≤ -1 → Date.leaps y ≤ Date.leaps (-1) := by
    intro h
    have := Date.leaps_mono y (-1 - y).toNat
    rwa [show y + ((-1 - y).toNat : Int) = -1 by omega] at this
  have v1 : Date.leaps 9999 = 2424 := by decide
  have v2 : Date.leaps (-1) = -1 := by decide
  rw [v1] at up; rw [v2] at down
  split <;> constructor <;> omega

/-- The text of a written instant is read as that instant. -/
theorem stamp_rfc3339 {t : DateTime} (h : t.Written) (r : Text) : stamp (t.rfc3339 ++ r) = some (some t, r) := by
  obtain ⟨h1, h2, h3, h4, h5⟩ := h
  obtain ⟨y0, y1⟩ := year_bounds (n := t.secs / 86400) (by omega) (by omega)
  obtain ⟨⟨v1, v2, v3, v4⟩, hv⟩ := Date.ofDayNumber_spec (t.secs / 86400)
  have v5 : (Date.ofDayNumber (t.secs / 86400)).d ≤ 31 := by
    unfold Date.daysIn at v4; split at v4 <;> split at v4 <;> omega
  unfold DateTime.rfc3339
  simp only
  have hyt : yearText (Date.ofDayNumber (t.secs / 86400)).y = padded 10 4 (Date.ofDayNumber (t.secs / 86400)).y.toNat := by
    unfold yearText; rw [if_pos ⟨y0, y1⟩]
  rw [hyt]
  simp only [List.append_assoc, List.cons_append, List.nil_append]
  generalize hD : Date.ofDayNumber (t.secs / 86400) = D at *
  rw [stamp_padded (n := (t.nanos % 1000000000).toNat) (off := 0) (r := r) (by omega) (by omega) (by omega) (by omega) (by omega) (by omega)
    (nanosPart_frac (by omega) r) rfl]
  have hDn : (⟨(D.y.toNat : Int), (D.m.toNat : Int), (D.d.toNat : Int)⟩ : Date) = D := by
    obtain ⟨a, b, c⟩ := D
    simp only [Date.mk.injEq] at *
    omega
  rw [mkInstant, if_pos ⟨by omega, by omega, by omega, by
    rw [show ((D.y.toNat : Nat) : Int) = D.y by omega, show ((D.m.toNat : Nat) : Int) = D.m by omega]; omega, by omega, by omega, by omega,
    by decide, by decide⟩, hDn, hv]
  obtain ⟨secs, nanos⟩ := t
  simp only at *
  by_cases hl : 1000000000 ≤ nanos
  · have := h5 hl
    rw [if_pos (by omega), if_pos (by omega)]
    simp only [Option.some.injEq, Prod.mk.injEq, DateTime.mk.injEq, and_true]
    omega
  · rw [if_neg (by omega), if_neg (by omega)]
    simp only [Option.some.injEq, Prod.mk.injEq, DateTime.mk.injEq, and_true]
    omega

theorem tagged_self (tag : Text) {r : Text} (hr : ∀ c t, r = c :: t → isWs c = false) : tagged tag (tag ++ ' ' :: r) = some r := by
  have h : spanC isWs (' ' :: r) = ([' '], r) := spanC_stop (s := [' ']) (by decide) hr
  simp [tagged, lit_self, h]

theorem instString_ok {t : DateTime} (h : t.Written) (rest : Text) :
    instString (['#', 'i', 'n', 's', 't', ' ', '"'] ++ (t.rfc3339 ++ '"' :: rest)) = .ok (.instant t) rest := by
  have h1 := tagged_self ['#', 'i', 'n', 's', 't'] (r := '"' :: (t.rfc3339 ++ '"' :: rest)) (by rintro c t ⟨⟩; decide)
  simp only [List.cons_append, List.nil_append] at h1 ⊢
  simp only [instString, h1, Option.bind_some, lit_one, stamp_rfc3339 h, Option.map_some]

theorem inst_ok {t : DateTime} (h : t.Written) (rest : Text) :
    inst (['#', 'i', 'n', 's', 't', ' ', '"'] ++ (t.rfc3339 ++ '"' :: rest)) = .ok (.instant t) rest := by
  have h1 := instString_ok h rest
  simp only [List.cons_append, List.nil_append] at h1 ⊢
  simp [inst, instUnits, tagged, lit, PRes.orElse, h1]

theorem inst_fail {c : Char} (h : c ≠ '#') (r : Text) : inst (c :: r) = .fail := by
  simp [inst, instUnits, instString, tagged, lit, Ne.symm h, PRes.orElse]

theorem uuid_fail {c : Char} (h : c ≠ '#') (r : Text) : EdnParse.uuid (c :: r) = .fail := by
  simp [EdnParse.uuid, tagged, lit, Ne.symm h]

theorem hexRun_padded (w n : Nat) (r : Text) : hexRun w (padded 16 w n ++ r) = some (padded 16 w n, r) := by
  have gen : ∀ s : Text, (∀ c ∈ s, isLowHex c = true) → hexRun s.length (s ++ r) = some (s, r) := by
    intro s
    induction s with
    | nil => intro _; rfl
    | cons c s ih =>
      intro h
      have := ih fun d hd => h d (by simp [hd])
      simp [hexRun, h c (by simp), this]
  have := gen (padded 16 w n) padded_hex
  rwa [padded_length] at this

theorem uuid_ok {u : Nat} (h : u < 2 ^ 128) (rest : Text) :
    EdnParse.uuid (['#', 'u', 'u', 'i', 'd', ' ', '"'] ++ (uuidText u ++ '"' :: rest)) = .ok (.uuid u) rest := by
  have h1 := tagged_self ['#', 'u', 'u', 'i', 'd'] (r := '"' :: (uuidText u ++ '"' :: rest)) (by rintro c t ⟨⟩; decide)
  simp only [List.cons_append, List.nil_append] at h1 ⊢
  simp only [EdnParse.uuid, h1, Option.bind_some, lit_one]
  simp only [uuidText, List.append_assoc, List.cons_append, hexRun_padded, Option.bind_some, lit_one, Option.map_some]
  rw [show radixValue 16 _ = radixFrom 16 (some 0) _ from rfl]
  simp only [radixFrom_append]
  rw [radixFrom_padded (by decide) (by decide), radixFrom_padded (by decide) (by decide), radixFrom_padded (by decide) (by decide),
    radixFrom_padded (by decide) (by decide), radixFrom_padded (by decide) (by decide)]
  have : (((((0 * 16 ^ 8 + u / 16 ^ 24 % 16 ^ 8) * 16 ^ 4 + u / 16 ^ 20 % 16 ^ 4) * 16 ^ 4 + u / 16 ^ 16 % 16 ^ 4) * 16 ^ 4 + u / 16 ^ 12 % 16 ^ 4) *
          16 ^ 12 + u % 16 ^ 12) = u := by omega
  rw [this]

end Mentat
