import Verif.Props.EdnParse
import Verif.Spec.InstText
/- C80: the text of an instant is the instant that the Gregorian calendar and the clock say. -/
namespace Mentat
open Edn EdnParse InstText

/-! ### Digits -/

theorem digit_value {c : Char} (h : '0' ≤ c ∧ c ≤ '9') : isDigit c = true ∧ c.toNat - 48 < 10 ∧ charDigit c = c.toNat - 48 ∧
    c = hexChar (c.toNat - 48) := by
  have hd : isDigit c = true := by simp [isDigit, h.1, h.2]
  have h1 : 48 ≤ c.toNat := h.1
  have h2 : c.toNat ≤ 57 := h.2
  refine ⟨hd, by omega, by simp [charDigit, hd], ?_⟩
  rw [hexChar, if_pos (by omega), digitChar, show 48 + (c.toNat - 48) = c.toNat by omega, Char.ofNat_toNat]

theorem numeral_append (s t : Text) : numeral (s ++ t) = numeral s * 10 ^ t.length + numeral t := by
  have gen : ∀ (t : Text) (a : Nat), t.foldl (fun a c => 10 * a + (c.toNat - 48)) a = a * 10 ^ t.length + numeral t := by
    intro t
    induction t with
    | nil => intro a; simp [numeral]
    | cons c t ih =>
      intro a
      have e : numeral (c :: t) = (10 * 0 + (c.toNat - 48)) * 10 ^ t.length + numeral t := by rw [← ih]; rfl
      rw [List.foldl_cons, ih, e]
      simp only [List.length_cons, Nat.pow_succ, Nat.mul_zero, Nat.zero_add]
      rw [Nat.add_mul, Nat.add_assoc, Nat.mul_comm (10 ^ t.length) 10, ← Nat.mul_assoc, Nat.mul_comm a 10]
  rw [numeral, List.foldl_append, gen]
  rfl

theorem numeral_lt {s : Text} (h : ∀ c ∈ s, '0' ≤ c ∧ c ≤ '9') : numeral s < 10 ^ s.length := by
  induction s with
  | nil => simp [numeral]
  | cons c s ih =>
    have h1 := ih fun d hd => h d (by simp [hd])
    have h2 := (digit_value (h c (by simp))).2.1
    rw [← List.singleton_append, numeral_append]
    have : numeral [c] = c.toNat - 48 := by simp [numeral]
    rw [this, List.length_append, List.length_singleton, Nat.add_comm 1, Nat.pow_succ]
    have : (c.toNat - 48) * 10 ^ s.length ≤ 9 * 10 ^ s.length := Nat.mul_le_mul_right _ (by omega)
    omega

theorem radix_numeral (a : Nat) {s : Text} (h : ∀ c ∈ s, '0' ≤ c ∧ c ≤ '9') :
    radixFrom 10 (some a) s = some (a * 10 ^ s.length + numeral s) := by
  induction s generalizing a with
  | nil => simp [radixFrom, numeral]
  | cons c s ih =>
    obtain ⟨-, h1, h2, -⟩ := digit_value (h c (by simp))
    rw [radixFrom, List.foldl_cons, Option.bind_some, h2, if_pos h1]
    have := ih (a * 10 + (c.toNat - 48)) fun d hd => h d (by simp [hd])
    rw [radixFrom] at this
    rw [this, ← List.singleton_append, numeral_append]
    have : numeral [c] = c.toNat - 48 := by simp [numeral]
    rw [this, List.length_append, List.length_singleton, Nat.add_comm 1, Nat.pow_succ, Nat.add_mul, Nat.mul_assoc, Nat.mul_comm 10]
    congr 1; omega

theorem padded_numeral {s : Text} (h : ∀ c ∈ s, '0' ≤ c ∧ c ≤ '9') : padded 10 s.length (numeral s) = s := by
  induction hs : s.length generalizing s with
  | zero => rw [List.length_eq_zero_iff.mp hs]; rfl
  | succ n ih =>
    have hne : s ≠ [] := by rintro rfl; simp at hs
    obtain ⟨t, c, rfl⟩ : ∃ t c, s = t ++ [c] := ⟨s.dropLast, s.getLast hne, (List.dropLast_concat_getLast hne).symm⟩
    obtain ⟨-, h1, -, h2⟩ := digit_value (h c (by simp))
    have hc : numeral [c] = c.toNat - 48 := by simp [numeral]
    rw [numeral_append, hc, padded]
    simp only [List.length_singleton, Nat.pow_one]
    rw [show (numeral t * 10 + (c.toNat - 48)) / 10 = numeral t by omega, show (numeral t * 10 + (c.toNat - 48)) % 10 = c.toNat - 48 by omega,
      ih (fun d hd => h d (by simp [hd])) (by simpa using hs), ← h2]

theorem digits_padded {w : Nat} {s : Text} (h : Digits w s) : s = padded 10 w (numeral s) := by
  rw [← h.1]; exact (padded_numeral h.2).symm

theorem digits_lt {w : Nat} {s : Text} (h : Digits w s) : numeral s < 10 ^ w := by
  rw [← h.1]; exact numeral_lt h.2

theorem padded_Digits (w n : Nat) : Digits w (padded 10 w n) := by
  refine ⟨padded_length _ _ _, ?_⟩
  intro c hc
  have := padded_digits c hc
  simpa [isDigit] using this

theorem padded_value {w n : Nat} (h : n < 10 ^ w) : numeral (padded 10 w n) = n := by
  have h1 := radix_numeral 0 (padded_Digits w n).2
  rw [radixFrom_padded (by decide) (by decide), Nat.mod_eq_of_lt h] at h1
  simpa using h1.symm

/-! ### Fields -/

theorem twoDigits_if {hi : Char} {k : Nat} (hk : k < 10) (hhi : hi = hexChar k) {s : Text} (h : Digits 2 s) (r : Text) :
    twoDigits hi (s ++ r) = if numeral s < 10 * (k + 1) then some (numeral s, r) else none := by
  have hlt := digits_lt h
  by_cases hn : numeral s < 10 * (k + 1)
  · rw [if_pos hn]
    have := twoDigits_padded hk hhi hn r
    rwa [← digits_padded h] at this
  · rw [if_neg hn, digits_padded h]
    generalize numeral s = n at *
    have h1 : padded 10 2 n ++ r = hexChar (n / 10 % 10) :: hexChar (n % 10) :: r := by simp [padded]
    rw [h1, twoDigits, digitTo_hex hk hhi (by omega), if_neg (by omega)]
    rfl

theorem nanosPart_eq {s rest : Text} (hs : s ≠ []) (h : ∀ c ∈ s, '0' ≤ c ∧ c ≤ '9') (hr : ∀ c t, rest = c :: t → isDigit c = false) :
    nanosPart ('.' :: (s ++ rest)) = some (numeral s * 10 ^ 9 / 10 ^ s.length, rest) := by
  rw [nanosPart_digits hs (fun c hc => (digit_value (h c hc)).1) hr]
  by_cases hl : s.length ≤ 9
  · have ht : (s ++ List.replicate 9 '0').take 9 = s ++ List.replicate (9 - s.length) '0' := by
      rw [List.take_append, List.take_replicate, List.take_of_length_le hl, Nat.min_eq_left (by omega)]
    rw [ht, show radixValue 10 _ = radixFrom 10 (some 0) _ from rfl, radixFrom_append, radix_numeral 0 h, radix_zeros]
    simp only [Nat.zero_mul, Nat.zero_add, Option.map_some, Option.some.injEq, Prod.mk.injEq, and_true]
    have : (10 : Nat) ^ 9 = 10 ^ (9 - s.length) * 10 ^ s.length := by rw [← Nat.pow_add]; congr 1; omega
    rw [this, ← Nat.mul_assoc, Nat.mul_div_cancel _ (Nat.pow_pos (by decide))]
  · have ht : (s ++ List.replicate 9 '0').take 9 = s.take 9 := by
      rw [List.take_append, show 9 - s.length = 0 by omega]; simp
    have hd : ∀ c ∈ s.take 9, '0' ≤ c ∧ c ≤ '9' := fun c hc => h c (List.mem_of_mem_take hc)
    rw [ht, show radixValue 10 _ = radixFrom 10 (some 0) _ from rfl, radix_numeral 0 hd]
    simp only [Nat.zero_mul, Nat.zero_add, Option.map_some, Option.some.injEq, Prod.mk.injEq, and_true]
    have e := numeral_append (s.take 9) (s.drop 9)
    rw [List.take_append_drop] at e
    have hb := numeral_lt fun c (hc : c ∈ s.drop 9) => h c (List.mem_of_mem_drop hc)
    rw [List.length_drop] at e hb
    have : (10 : Nat) ^ s.length = 10 ^ (s.length - 9) * 10 ^ 9 := by rw [← Nat.pow_add]; congr 1; omega
    rw [this, Nat.mul_div_mul_right _ _ (by decide), e, Nat.mul_comm, Nat.mul_add_div (Nat.pow_pos (by decide)),
      Nat.div_eq_of_lt hb]
    rfl

theorem zone_eq {z : Zone} (h : z.Ok) (r : Text) : offsetPart (z.text ++ r) =
    (match z with
     | .utc => some (0, r)
     | .ahead a b => if numeral a < 30 ∧ numeral b < 60 then some (z.secs, r) else none
     | .behind a b => if numeral a < 30 ∧ numeral b < 60 then some (z.secs, r) else none) := by
  cases z with
  | utc => rfl
  | ahead a b =>
    simp only [Zone.text, List.cons_append, List.append_assoc]
    have e : offsetPart ('+' :: (a ++ ':' :: (b ++ r))) = (twoDigits '2' (a ++ ':' :: (b ++ r))).bind fun h => (lit [':'] h.2).bind fun r =>
      (twoDigits '5' r).map fun m => ((3600 * h.1 + 60 * m.1 : Int), m.2) := by simp [offsetPart]
    rw [e, twoDigits_if (k := 2) (by decide) (by decide) h.1]
    by_cases h1 : numeral a < 30
    · rw [if_pos h1]
      simp only [Option.bind_some, lit_one]
      rw [twoDigits_if (k := 5) (by decide) (by decide) h.2]
      by_cases h2 : numeral b < 60
      · rw [if_pos h2, if_pos ⟨h1, h2⟩]; rfl
      · rw [if_neg h2, if_neg (fun x => h2 x.2)]; rfl
    · rw [if_neg h1, if_neg (fun x => h1 x.1)]; rfl
  | behind a b =>
    simp only [Zone.text, List.cons_append, List.append_assoc]
    have e : offsetPart ('-' :: (a ++ ':' :: (b ++ r))) = (twoDigits '2' (a ++ ':' :: (b ++ r))).bind fun h => (lit [':'] h.2).bind fun r =>
      (twoDigits '5' r).map fun m => (-(3600 * h.1 + 60 * m.1 : Int), m.2) := by simp [offsetPart]
    rw [e, twoDigits_if (k := 2) (by decide) (by decide) h.1]
    by_cases h1 : numeral a < 30
    · rw [if_pos h1]
      simp only [Option.bind_some, lit_one]
      rw [twoDigits_if (k := 5) (by decide) (by decide) h.2]
      by_cases h2 : numeral b < 60
      · rw [if_pos h2, if_pos ⟨h1, h2⟩]; rfl
      · rw [if_neg h2, if_neg (fun x => h2 x.2)]; rfl
    · rw [if_neg h1, if_neg (fun x => h1 x.1)]; rfl

theorem zone_head {z : Zone} : ∀ c t, z.text = c :: t → isDigit c = false := by
  intro c t h
  cases z <;> simp [Zone.text] at h <;> rw [← h.1] <;> decide

theorem zone_head' {z : Zone} (r : Text) : ∀ c t, z.text ++ r = c :: t → isDigit c = false := by
  intro c t h
  cases hz : z.text with
  | nil => cases z <;> simp [Zone.text] at hz
  | cons d s =>
    rw [hz] at h
    simp only [List.cons_append, List.cons.injEq] at h
    rw [← h.1]; exact zone_head d s hz

theorem zone_dot {z : Zone} (r : Text) : nanosPart (z.text ++ r) = some (0, z.text ++ r) := by
  cases z <;> rfl

theorem frac_eq {f : Fields} (h : f.Ok) (r : Text) :
    nanosPart (fracOf f.frac ++ (f.zone.text ++ r)) = some (f.nanos, f.zone.text ++ r) := by
  unfold Fields.nanos
  cases hf : f.frac with
  | none => exact zone_dot r
  | some s =>
    obtain ⟨h1, h2⟩ := h.frac s hf
    exact nanosPart_eq h1 h2 (zone_head' r)

/-- What the reader makes of the fields: chrono's instant, where the digits are of the grammar's classes. -/
theorem stamp_fields {f : Fields} (h : f.Ok) (r : Text) : stamp (f.text ++ r) =
    if numeral f.month < 30 ∧ numeral f.day < 40 ∧ numeral f.hour < 30 ∧ numeral f.minute < 60 ∧ numeral f.second < 70 then
      (offsetPart (f.zone.text ++ r)).map fun o =>
        (mkInstant (numeral f.year) (numeral f.month) (numeral f.day) (numeral f.hour) (numeral f.minute) (numeral f.second) f.nanos o.1, o.2)
    else none := by
  have hy : ∃ a b, f.year = a ++ b ∧ Digits 2 a ∧ Digits 2 b ∧ 100 * numeral a + numeral b = numeral f.year := by
    refine ⟨f.year.take 2, f.year.drop 2, (List.take_append_drop 2 _).symm, ⟨?_, ?_⟩, ⟨?_, ?_⟩, ?_⟩
    · simp [h.year.1]
    · intro c hc; exact h.year.2 c (List.mem_of_mem_take hc)
    · simp [h.year.1]
    · intro c hc; exact h.year.2 c (List.mem_of_mem_drop hc)
    · have := numeral_append (f.year.take 2) (f.year.drop 2)
      rw [List.take_append_drop] at this
      simp [h.year.1] at this
      omega
  obtain ⟨a, b, hab, ha, hb, hv⟩ := hy
  have hfr := frac_eq h r
  have h1 := h.month
  have h2 := h.day
  have h3 := h.hour
  have h4 := h.minute
  have h5 := h.second
  rw [← hv]
  simp only [Fields.text, hab, List.append_assoc, List.cons_append]
  generalize fracOf f.frac ++ (f.zone.text ++ r) = tail at hfr ⊢
  unfold stamp
  rw [twoDigits_if (k := 9) (by decide) (by decide) ha, if_pos (digits_lt ha)]
  simp only [Option.bind_some]
  rw [twoDigits_if (k := 9) (by decide) (by decide) hb, if_pos (digits_lt hb)]
  simp only [Option.bind_some, lit_one]
  rw [twoDigits_if (k := 2) (by decide) (by decide) h1]
  by_cases c1 : numeral f.month < 30
  swap
  · rw [if_neg c1, if_neg (fun x => c1 x.1)]; rfl
  rw [if_pos c1]
  simp only [Option.bind_some, lit_one]
  rw [twoDigits_if (k := 3) (by decide) (by decide) h2]
  by_cases c2 : numeral f.day < 40
  swap
  · rw [if_neg c2, if_neg (fun x => c2 x.2.1)]; rfl
  rw [if_pos c2]
  simp only [Option.bind_some, lit_one]
  rw [twoDigits_if (k := 2) (by decide) (by decide) h3]
  by_cases c3 : numeral f.hour < 30
  swap
  · rw [if_neg c3, if_neg (fun x => c3 x.2.2.1)]; rfl
  rw [if_pos c3]
  simp only [Option.bind_some, lit_one]
  rw [twoDigits_if (k := 5) (by decide) (by decide) h4]
  by_cases c4 : numeral f.minute < 60
  swap
  · rw [if_neg c4, if_neg (fun x => c4 x.2.2.2.1)]; rfl
  rw [if_pos c4]
  simp only [Option.bind_some, lit_one]
  rw [twoDigits_if (k := 6) (by decide) (by decide) h5]
  by_cases c5 : numeral f.second < 70
  swap
  · rw [if_neg c5, if_neg (fun x => c5 x.2.2.2.2)]; rfl
  rw [if_pos c5, if_pos ⟨c1, c2, c3, c4, c5⟩]
  simp only [Option.bind_some, hfr]

theorem zone_real {z : Zone} (h : z.Ok) (r : Text) : (∃ o, offsetPart (z.text ++ r) = some (o, r) ∧ o = z.secs ∧ (z.Real ↔ -86400 < o ∧ o < 86400)) ∨
    (offsetPart (z.text ++ r) = none ∧ ¬ z.Real) := by
  rw [zone_eq h]
  cases z with
  | utc => exact Or.inl ⟨0, rfl, rfl, by simp [Zone.Real]⟩
  | ahead a b =>
    simp only
    by_cases hc : numeral a < 30 ∧ numeral b < 60
    · rw [if_pos hc]; exact Or.inl ⟨_, rfl, rfl, by simp only [Zone.Real, Zone.secs]; omega⟩
    · rw [if_neg hc]; exact Or.inr ⟨rfl, by simp only [Zone.Real]; omega⟩
  | behind a b =>
    simp only
    by_cases hc : numeral a < 30 ∧ numeral b < 60
    · rw [if_pos hc]; exact Or.inl ⟨_, rfl, rfl, by simp only [Zone.Real, Zone.secs]; omega⟩
    · rw [if_neg hc]; exact Or.inr ⟨rfl, by simp only [Zone.Real]; omega⟩

/-- The instant of the fields. -/
theorem stamp_on {f : Fields} (h : f.Ok) {a : Gregorian.Day} (ha : f.On a) {n : Int} (hn : Gregorian.DaysAfter Gregorian.epoch n a) (r : Text) :
    stamp (f.text ++ r) = some (some ⟨86400 * n + 3600 * numeral f.hour + 60 * numeral f.minute + min (numeral f.second) 59 - f.zone.secs,
      f.nanos + (if numeral f.second = 60 then 1000000000 else 0)⟩, r) := by
  obtain ⟨h1, h2, h3, h4, h5, h6, h7⟩ := ha
  have hd := a.day_le
  have hv := a.valid
  rw [Gregorian.daysAfter_iff] at hn
  have hdl := hv.2.2.2
  have e31 : a.day ≤ 31 := by
    simp only [Gregorian.Day.date] at hdl; unfold Date.daysIn at hdl; split at hdl <;> split at hdl <;> omega
  have m1 := a.month_pos
  have m2 := a.month_le
  have d1 := a.day_pos
  rcases zone_real h.zone r with ⟨o, e1, e2, e3⟩ | ⟨-, e⟩
  · obtain ⟨e4, e5⟩ := e3.mp h7
    rw [stamp_fields h, if_pos ⟨by omega, by omega, by omega, by omega, by omega⟩, e1]
    simp only [Option.map_some]
    rw [mkInstant, if_pos ⟨by omega, by omega, by omega, by rw [← h1, ← h2, ← h3]; exact hdl, h4, h5, h6, e4, e5⟩, ← h1, ← h2, ← h3]
    have : Date.dayNumber ⟨a.year, a.month, a.day⟩ = n := hn
    rw [this, e2]
    simp only [Option.some.injEq, Prod.mk.injEq, DateTime.mk.injEq, and_true]
    split <;> omega
  · exact absurd h7 e

/-- Fields that are no day or no time are no instant. -/
theorem stamp_off {f : Fields} (h : f.Ok) (ha : ∀ a, ¬ f.On a) (r : Text) :
    stamp (f.text ++ r) = none ∨ stamp (f.text ++ r) = some (none, r) := by
  rw [stamp_fields h]
  split
  · rename_i hc
    rcases zone_real h.zone r with ⟨o, e1, e2, e3⟩ | ⟨e, -⟩
    · rw [e1]
      right
      simp only [Option.map_some]
      rw [mkInstant, if_neg]
      rintro ⟨c1, c2, c3, c4, c5, c6, c7, c8⟩
      refine ha ⟨numeral f.year, numeral f.month, numeral f.day, by omega, by omega, by omega, ?_⟩ ⟨rfl, rfl, rfl, c5, c6, c7, e3.mpr c8⟩
      rw [← Date.daysIn_eq (by omega) (by omega)]; exact c4
    · rw [e]; exact Or.inl rfl
  · exact Or.inl rfl

theorem tagged_spaces (tag : Text) {ws r : Text} (h : Spaces ws) (hr : ∀ c t, r = c :: t → isWs c = false) :
    tagged tag (tag ++ (ws ++ r)) = some r := by
  have hs : spanC isWs (ws ++ r) = (ws, r) := by
    refine spanC_stop ?_ hr
    intro c hc
    rcases h.2 c hc with rfl | rfl | rfl | rfl | rfl <;> decide
  simp [tagged, lit_self, hs, h.1]

/-- `#inst`, spaces and the text in quotes. -/
def instForm (ws : Text) (f : Fields) : Text := ['#', 'i', 'n', 's', 't'] ++ (ws ++ ('"' :: (f.text ++ ['"'])))

theorem spaces_head {ws r : Text} (h : Spaces ws) : ∃ c t, ws ++ r = c :: t ∧ c ≠ 'm' ∧ c ≠ '{' := by
  obtain ⟨h1, h2⟩ := h
  cases ws with
  | nil => exact absurd rfl h1
  | cons c t =>
    refine ⟨c, t ++ r, rfl, ?_⟩
    rcases h2 c (by simp) with rfl | rfl | rfl | rfl | rfl <;> decide

theorem inst_spaces {ws r : Text} (h : Spaces ws) :
    inst (['#', 'i', 'n', 's', 't'] ++ (ws ++ r)) = instString (['#', 'i', 'n', 's', 't'] ++ (ws ++ r)) := by
  obtain ⟨c, t, e, hc, -⟩ := spaces_head (r := r) h
  rw [e]
  simp [inst, instUnits, tagged, lit, Ne.symm hc, PRes.orElse]

/-- An atom that begins with `#inst` and spaces, followed by a quote, is an instant or nothing. -/
theorem atom_inst {ws r : Text} (h : Spaces ws) :
    atom (['#', 'i', 'n', 's', 't'] ++ (ws ++ r)) = instString (['#', 'i', 'n', 's', 't'] ++ (ws ++ r)) := by
  have hi := inst_spaces (r := r) h
  simp only [List.cons_append, List.nil_append] at hi ⊢
  obtain ⟨h1, h2, h3, h4⟩ := hash_fails ('i' :: 'n' :: 's' :: 't' :: (ws ++ r))
  have h5 : symbol ('#' :: 'i' :: 'n' :: 's' :: 't' :: (ws ++ r)) = .fail := symbol_fail (by decide) (by decide) _
  have h6 : EdnParse.keyword ('#' :: 'i' :: 'n' :: 's' :: 't' :: (ws ++ r)) = .fail := keyword_fail (by decide) _
  have h7 : EdnParse.text ('#' :: 'i' :: 'n' :: 's' :: 't' :: (ws ++ r)) = .fail := text_fail (by decide) _
  unfold atom
  rw [h1, h2, h3, h4, h5, h6, h7, hi]
  simp only [EdnParse.PRes.orElse, nan, infinity, EdnParse.uuid, tagged, lit]
  cases instString ('#' :: 'i' :: 'n' :: 's' :: 't' :: (ws ++ r)) <;> simp

theorem parse_inst_ok {ws : Text} (h : Spaces ws) {f : Fields} {t : DateTime} (hs : stamp (f.text ++ ['"']) = some (some t, ['"'])) :
    parse (instForm ws f) = .ok (.instant t) [] := by
  have ha : atom (instForm ws f) = .ok (.instant t) [] := by
    rw [instForm, atom_inst h]
    have h1 := tagged_spaces ['#', 'i', 'n', 's', 't'] (r := '"' :: (f.text ++ ['"'])) h (by rintro c t ⟨⟩; decide)
    simp only [instString, h1, Option.bind_some, lit_one, hs, Option.map_some]
  have hst : Starts (instForm ws f) := ⟨'#', _, rfl, by decide⟩
  have := value_atom (n := 4 * (instForm ws f).length + 4) (rest := []) (by omega) hst (by rw [List.append_nil]; exact ha)
  rw [List.append_nil] at this
  rw [parse, this]
  rfl

theorem parse_inst_fail {ws : Text} (h : Spaces ws) {f : Fields} {r : Text}
    (hs : stamp (f.text ++ ['"']) = none ∨ stamp (f.text ++ ['"']) = some (none, r)) :
    parse (instForm ws f) = .fail := by
  have ha : atom (instForm ws f) = .fail := by
    rw [instForm, atom_inst h]
    have h1 := tagged_spaces ['#', 'i', 'n', 's', 't'] (r := '"' :: (f.text ++ ['"'])) h (by rintro c t ⟨⟩; decide)
    simp only [instString, h1, Option.bind_some, lit_one]
    rcases hs with hs | hs
    · simp only [hs, Option.bind_none]
    · simp only [hs, Option.bind_some]
      cases lit ['"'] r <;> rfl
  have hst : Starts (instForm ws f) := ⟨'#', _, rfl, by decide⟩
  have hk : skip (instForm ws f) = instForm ws f := by have := hst.skip []; rwa [List.append_nil] at this
  have hc : ∀ n, collection (n + 1) (instForm ws f) = .fail := by
    intro n; simp [instForm, collection]
  rw [parse, value, hk, ha]
  simp only [EdnParse.PRes.orElse]
  rw [hc]

/-- C80: the text of a day of the Gregorian calendar and a time of day with an offset, all digits of the fraction counted, is
the instant that is as many days after 1970-01-01 as one counts, and as many seconds and nanoseconds as the clock says, less the
offset.  The second 60 is kept as a leap second. -/
theorem C80_reads {ws : Text} (hw : Spaces ws) {f : Fields} (h : f.Ok) {a : Gregorian.Day} (ha : f.On a)
    {n : Int} (hn : Gregorian.DaysAfter Gregorian.epoch n a) :
    parse (instForm ws f) = .ok (.instant
      ⟨86400 * n + 3600 * numeral f.hour + 60 * numeral f.minute + min (numeral f.second) 59 - f.zone.secs,
       f.nanos + (if numeral f.second = 60 then 1000000000 else 0)⟩) [] :=
  parse_inst_ok hw (stamp_on h ha hn ['"'])

/-- C80: digits that are no day of the calendar, no time of day or no offset are not read. -/
theorem C80_rejects {ws : Text} (hw : Spaces ws) {f : Fields} (h : f.Ok) (ha : ∀ a, ¬ f.On a) :
    parse (instForm ws f) = .fail :=
  parse_inst_fail hw (stamp_off h ha ['"'])

/-- The year of a day, compared with the first of January. -/
theorem year_lt (n Y : Int) : (Date.ofDayNumber n).y < Y ↔ n < Date.dayNumber ⟨Y, 1, 1⟩ := by
  obtain ⟨hv, hn⟩ := Date.ofDayNumber_spec n
  obtain ⟨y, mp, a1, a2, a3, a4, a5, a6, a7, a8⟩ := Date.valid_march hv
  obtain ⟨c1, c2, c3, c4⟩ := Date.marchDay_bounds a1 a2 a3 a4 a5 fun e => (a6 e).1
  rw [hn] at a8
  have hmd : 10 ≤ mp → 306 ≤ Date.marchDay mp (Date.ofDayNumber n).d := by intro h; unfold Date.marchDay; omega
  have hmd' : mp < 10 → Date.marchDay mp (Date.ofDayNumber n).d ≤ 305 := by intro h; unfold Date.marchDay; omega
  have hleap : Date.marchDay mp (Date.ofDayNumber n).d = 365 → Date.isLeap (y + 1) = true := fun e => (a6 (c3 e).1).2 (c3 e).2
  have e : (Date.ofDayNumber n).y = if mp < 10 then y else y + 1 := by rw [a7]; split <;> rfl
  generalize Date.marchDay mp (Date.ofDayNumber n).d = q at *
  rw [e, Date.dayNumber_eq]
  simp only [show ¬ ((1 : Int) > 2) by decide, show (1 : Int) ≤ 2 by decide, if_true, show Date.marchDay (1 + 9) 1 = 306 by decide]
  have hs := Date.leaps_step (y + 1)
  rw [show y + 1 - 1 = y by omega] at hs
  have up : Y - 1 ≤ y → Date.leaps (Y - 1) ≤ Date.leaps y := by
    intro h
    have := Date.leaps_mono (Y - 1) (y - (Y - 1)).toNat
    rwa [show Y - 1 + ((y - (Y - 1)).toNat : Int) = y by omega] at this
  have down : y ≤ Y - 1 → Date.leaps y ≤ Date.leaps (Y - 1) := by
    intro h
    have := Date.leaps_mono y (Y - 1 - y).toNat
    rwa [show y + ((Y - 1 - y).toNat : Int) = Y - 1 by omega] at this
  have down' : y + 1 ≤ Y - 1 → Date.leaps (y + 1) ≤ Date.leaps (Y - 1) := by
    intro h
    have := Date.leaps_mono (y + 1) (Y - 1 - (y + 1)).toNat
    rwa [show y + 1 + ((Y - 1 - (y + 1)).toNat : Int) = Y - 1 by omega] at this
  by_cases hL : Date.isLeap (y + 1) = true
  · rw [if_pos hL] at hs
    split <;> constructor <;> intro h <;> omega
  · rw [if_neg hL] at hs
    have hq : q ≠ 365 := fun e => hL (hleap e)
    split <;> constructor <;> intro h <;> omega

/-- An atom that begins with one of the two tags is a count or nothing. -/
theorem atom_units {ws r : Text} (h : Spaces ws) {tag : Text} {k : Nat}
    (ht : (tag = ['#', 'i', 'n', 's', 't', 'm', 'i', 'l', 'l', 'i', 's'] ∧ k = 1000) ∨
      (tag = ['#', 'i', 'n', 's', 't', 'm', 'i', 'c', 'r', 'o', 's'] ∧ k = 1000000))
    {v : PRes Edn} (hv : instUnits tag k (tag ++ (ws ++ r)) = v) (hne : v ≠ .fail) : atom (tag ++ (ws ++ r)) = v := by
  have key : inst (tag ++ (ws ++ r)) = v := by
    unfold inst
    rcases ht with ⟨rfl, rfl⟩ | ⟨rfl, rfl⟩
    · rw [hv]; cases v <;> first | rfl | exact absurd rfl hne
    · have hm : instUnits ['#', 'i', 'n', 's', 't', 'm', 'i', 'l', 'l', 'i', 's'] 1000
          (['#', 'i', 'n', 's', 't', 'm', 'i', 'c', 'r', 'o', 's'] ++ (ws ++ r)) = .fail := by
        simp [instUnits, tagged, lit]
      rw [hm, hv]; cases v <;> first | rfl | exact absurd rfl hne
  obtain ⟨t, rfl⟩ : ∃ t, tag = '#' :: 'i' :: t := by
    rcases ht with ⟨rfl, -⟩ | ⟨rfl, -⟩ <;> exact ⟨_, rfl⟩
  simp only [List.cons_append] at key ⊢
  obtain ⟨h1, h2, h3, h4⟩ := hash_fails ('i' :: (t ++ (ws ++ r)))
  unfold atom
  rw [h1, h2, h3, h4, key]
  simp only [EdnParse.PRes.orElse, nan, infinity, lit]
  cases v <;> simp at hne ⊢

theorem parse_units {ws ds : Text} (hw : Spaces ws) (hd : ds ≠ []) (hds : ∀ c ∈ ds, '0' ≤ c ∧ c ≤ '9') {tag : Text} {k : Nat}
    (ht : (tag = ['#', 'i', 'n', 's', 't', 'm', 'i', 'l', 'l', 'i', 's'] ∧ k = 1000) ∨
      (tag = ['#', 'i', 'n', 's', 't', 'm', 'i', 'c', 'r', 'o', 's'] ∧ k = 1000000)) :
    parse (tag ++ (ws ++ ds)) = if numeral ds < 2 ^ 63 ∧ numeral ds / k < 8210298412800 then
      .ok (.instant ⟨(numeral ds / k : Nat), (numeral ds % k * (1000000000 / k) : Nat)⟩) [] else .panic := by
  have hdig : ∀ c ∈ ds, isDigit c = true := fun c hc => (digit_value (hds c hc)).1
  have hsp : spanC isDigit ds = (ds, []) := by
    have := spanC_stop (rest := []) hdig (by simp)
    rwa [List.append_nil] at this
  have h1 : tagged tag (tag ++ (ws ++ ds)) = some ds := by
    refine tagged_spaces tag hw ?_
    rintro c t rfl
    have h2 := hdig c (by simp)
    cases hw : isWs c with
    | false => rfl
    | true =>
      simp only [isWs, Bool.or_eq_true, decide_eq_true_eq] at hw
      rcases hw with (((rfl | rfl) | rfl) | rfl) | rfl <;> exact absurd h2 (by decide)
  have hr : radixValue 10 ds = some (numeral ds) := by
    have := radix_numeral 0 hds
    simpa [radixFrom, radixValue] using this
  have hy : ((Date.ofDayNumber (((numeral ds / k : Nat) : Int) / 86400)).y ≤ maxYear) ↔ numeral ds / k < 8210298412800 := by
    have := year_lt (((numeral ds / k : Nat) : Int) / 86400) 262144
    rw [show Date.dayNumber ⟨262144, 1, 1⟩ = 95026602 by decide] at this
    rw [maxYear]
    generalize numeral ds / k = p at *
    omega
  have hu : instUnits tag k (tag ++ (ws ++ ds)) = if numeral ds < 2 ^ 63 ∧ numeral ds / k < 8210298412800 then
      .ok (.instant ⟨(numeral ds / k : Nat), (numeral ds % k * (1000000000 / k) : Nat)⟩) [] else .panic := by
    simp only [instUnits, h1, hsp, hd, if_false, hr, hy]
  have hst : Starts (tag ++ (ws ++ ds)) := by
    rcases ht with ⟨rfl, -⟩ | ⟨rfl, -⟩ <;> exact ⟨'#', _, rfl, by decide⟩
  split at hu
  · rename_i hc
    rw [if_pos hc]
    have ha := atom_units hw ht hu (by simp)
    have := value_atom (n := 4 * (tag ++ (ws ++ ds)).length + 4) (rest := []) (by omega) hst (by rw [List.append_nil]; exact ha)
    rw [List.append_nil] at this
    rw [parse, this]
    rfl
  · rename_i hc
    rw [if_neg hc]
    have ha := atom_units hw ht hu (by simp)
    have hk : skip (tag ++ (ws ++ ds)) = tag ++ (ws ++ ds) := by have := hst.skip []; rwa [List.append_nil] at this
    rw [parse, value, hk, ha]
    simp only [EdnParse.PRes.orElse]

/-- C80: a count of milliseconds is the instant that many milliseconds after the first of January 1970; up to the last one of the
year 262143, beyond which the reader panics. -/
theorem C80_millis {ws ds : Text} (hw : Spaces ws) (hd : ds ≠ []) (hds : ∀ c ∈ ds, '0' ≤ c ∧ c ≤ '9') :
    (numeral ds < 8210298412800000 → ∃ t : DateTime, parse ("#instmillis".toList ++ (ws ++ ds)) = .ok (.instant t) [] ∧
      0 ≤ t.nanos ∧ t.nanos < 1000000000 ∧ t.secs * 1000000000 + t.nanos = numeral ds * 1000000) ∧
    (8210298412800000 ≤ numeral ds → parse ("#instmillis".toList ++ (ws ++ ds)) = .panic) := by
  have h := parse_units hw hd hds (Or.inl ⟨rfl, rfl⟩)
  constructor
  · intro hn
    rw [if_pos ⟨by omega, by omega⟩] at h
    exact ⟨_, h, by simp only; omega, by simp only; omega, by simp only; omega⟩
  · intro hn
    rw [if_neg (by omega)] at h
    exact h

/-- C80: the same of microseconds, where 64 bits are the limit. -/
theorem C80_micros {ws ds : Text} (hw : Spaces ws) (hd : ds ≠ []) (hds : ∀ c ∈ ds, '0' ≤ c ∧ c ≤ '9') :
    (numeral ds < 8210298412800000000 → ∃ t : DateTime, parse ("#instmicros".toList ++ (ws ++ ds)) = .ok (.instant t) [] ∧
      0 ≤ t.nanos ∧ t.nanos < 1000000000 ∧ t.secs * 1000000000 + t.nanos = numeral ds * 1000) ∧
    (8210298412800000000 ≤ numeral ds → parse ("#instmicros".toList ++ (ws ++ ds)) = .panic) := by
  have h := parse_units hw hd hds (Or.inr ⟨rfl, rfl⟩)
  constructor
  · intro hn
    rw [if_pos ⟨by omega, by omega⟩] at h
    exact ⟨_, h, by simp only; omega, by simp only; omega, by simp only; omega⟩
  · intro hn
    rw [if_neg (by omega)] at h
    exact h

/-- C80: every day is some number of days from 1970-01-01, and only one; and every number is the number of one day. -/
theorem C80_days : (∀ a, ∃ n, Gregorian.DaysAfter Gregorian.epoch n a ∧ ∀ m, Gregorian.DaysAfter Gregorian.epoch m a → m = n) ∧
    (∀ n, ∃ a, Gregorian.DaysAfter Gregorian.epoch n a ∧ ∀ b, Gregorian.DaysAfter Gregorian.epoch n b → b = a) := by
  refine ⟨fun a => ⟨a.date.dayNumber, (Gregorian.daysAfter_iff a _).mpr rfl, fun m hm => ((Gregorian.daysAfter_iff a m).mp hm).symm⟩,
    fun n => ⟨Gregorian.ofNumber n, (Gregorian.daysAfter_iff _ n).mpr (Gregorian.ofNumber_number n), fun b hb => ?_⟩⟩
  apply Gregorian.number_unique
  rw [(Gregorian.daysAfter_iff b n).mp hb, Gregorian.ofNumber_number]

/-- C80: an instant is printed as the day that is its number of days after 1970-01-01 and the time of that day, in UTC, with
three, six or nine digits of fraction where it has one. -/
theorem C80_prints {t : DateTime} (h : t.Written) : ∃ f a, f.Ok ∧ f.On a ∧ f.zone = .utc ∧
    print (.instant t) = instForm [' '] f ∧ Gregorian.DaysAfter Gregorian.epoch (t.secs / 86400) a ∧
    t.secs % 86400 = 3600 * numeral f.hour + 60 * numeral f.minute + min (numeral f.second) 59 ∧
    t.nanos = f.nanos + (if numeral f.second = 60 then 1000000000 else 0) ∧
    (∀ s, f.frac = some s → (s.length = 3 ∨ s.length = 6 ∨ s.length = 9) ∧ f.nanos ≠ 0) := by
  obtain ⟨h1, h2, h3, h4, h5⟩ := h
  obtain ⟨y0, y1⟩ := year_bounds (n := t.secs / 86400) (by omega) (by omega)
  obtain ⟨⟨v1, v2, v3, v4⟩, hv⟩ := Date.ofDayNumber_spec (t.secs / 86400)
  have v5 : (Date.ofDayNumber (t.secs / 86400)).d ≤ 31 := by
    unfold Date.daysIn at v4; split at v4 <;> split at v4 <;> omega
  have hfr : ∃ o : Option Text, fracText (t.nanos % 1000000000).toNat = fracOf o ∧
      (∀ s, o = some s → s ≠ [] ∧ (∀ c ∈ s, '0' ≤ c ∧ c ≤ '9') ∧ (s.length = 3 ∨ s.length = 6 ∨ s.length = 9)) ∧
      nanosOf o = (t.nanos % 1000000000).toNat ∧
      (∀ s, o = some s → (t.nanos % 1000000000).toNat ≠ 0) := by
    have hlt : (t.nanos % 1000000000).toNat < 1000000000 := by omega
    generalize (t.nanos % 1000000000).toNat = q at *
    have key : ∀ w m, (w = 3 ∨ w = 6 ∨ w = 9) → m < 10 ^ w → m * 10 ^ (9 - w) = q → q ≠ 0 → fracText q = '.' :: padded 10 w m →
        ∃ o : Option Text, fracText q = fracOf o ∧
        (∀ s, o = some s → s ≠ [] ∧ (∀ c ∈ s, '0' ≤ c ∧ c ≤ '9') ∧ (s.length = 3 ∨ s.length = 6 ∨ s.length = 9)) ∧
        nanosOf o = q ∧ (∀ s, o = some s → q ≠ 0) := by
      intro w m hw hm hq hq0 he
      refine ⟨some (padded 10 w m), he, ?_, ?_, fun _ _ => hq0⟩
      · rintro s ⟨⟩
        have := padded_Digits w m
        refine ⟨?_, this.2, by rw [this.1]; exact hw⟩
        intro e; have := this.1; rw [e] at this; simp at this; omega
      · simp only [nanosOf, padded_value hm, padded_length]
        rw [← hq]
        rcases hw with rfl | rfl | rfl <;> simp <;> omega
    unfold fracText
    split
    · rename_i hq; subst hq; exact ⟨none, rfl, by simp, rfl, by simp⟩
    · rename_i hq0
      split
      · rename_i hq
        have := key 3 (q / 1000000) (by simp) (by omega) (by omega) hq0 (by unfold fracText; rw [if_neg hq0, if_pos hq])
        rwa [fracText, if_neg hq0, if_pos hq] at this
      · rename_i hq
        split
        · rename_i hq'
          have := key 6 (q / 1000) (by simp) (by omega) (by omega) hq0 (by unfold fracText; rw [if_neg hq0, if_neg hq, if_pos hq'])
          rwa [fracText, if_neg hq0, if_neg hq, if_pos hq'] at this
        · rename_i hq'
          have := key 9 q (by simp) (by omega) (by omega) hq0 (by unfold fracText; rw [if_neg hq0, if_neg hq, if_neg hq'])
          rwa [fracText, if_neg hq0, if_neg hq, if_neg hq'] at this
  obtain ⟨o, o1, o2, o3, o4⟩ := hfr
  generalize hD : Date.ofDayNumber (t.secs / 86400) = D at *
  have n1 : numeral (padded 10 4 D.y.toNat) = D.y.toNat := padded_value (by omega)
  have n2 : numeral (padded 10 2 D.m.toNat) = D.m.toNat := padded_value (by omega)
  have n3 : numeral (padded 10 2 D.d.toNat) = D.d.toNat := padded_value (by omega)
  have n4 : numeral (padded 10 2 (t.secs % 86400 / 3600).toNat) = (t.secs % 86400 / 3600).toNat := padded_value (by omega)
  have n5 : numeral (padded 10 2 (t.secs % 86400 / 60 % 60).toNat) = (t.secs % 86400 / 60 % 60).toNat := padded_value (by omega)
  have n6 : numeral (padded 10 2 (t.secs % 86400 % 60 + t.nanos / 1000000000).toNat) = (t.secs % 86400 % 60 + t.nanos / 1000000000).toNat :=
    padded_value (by omega)
  refine ⟨⟨padded 10 4 D.y.toNat, padded 10 2 D.m.toNat, padded 10 2 D.d.toNat, padded 10 2 (t.secs % 86400 / 3600).toNat,
    padded 10 2 (t.secs % 86400 / 60 % 60).toNat, padded 10 2 (t.secs % 86400 % 60 + t.nanos / 1000000000).toNat, o, .utc⟩,
    ⟨D.y, D.m, D.d, v1, v2, v3, by rw [← Date.daysIn_eq v1 v2]; exact v4⟩, ?_, ?_, rfl, ?_, ?_, ?_, ?_, ?_⟩
  · exact ⟨padded_Digits _ _, padded_Digits _ _, padded_Digits _ _, padded_Digits _ _, padded_Digits _ _, padded_Digits _ _,
      fun s hs => ⟨(o2 s hs).1, (o2 s hs).2.1⟩, trivial⟩
  · refine ⟨?_, ?_, ?_, ?_, ?_, ?_, trivial⟩ <;> simp only [n1, n2, n3, n4, n5, n6] <;> omega
  · rw [print, instForm, Fields.text, DateTime.rfc3339]
    simp only [hD, o1, yearText, if_pos (And.intro y0 y1), Zone.text, List.append_assoc, List.cons_append, List.nil_append]
  · rw [Gregorian.daysAfter_iff]; exact hv
  · simp only [n4, n5, n6]; omega
  · simp only [n6, Fields.nanos]
    rw [o3]
    split <;> omega
  · intro s hs
    refine ⟨(o2 s hs).2.2, ?_⟩
    simp only [Fields.nanos]
    rw [o3]; exact o4 s hs

/-- `2000-02-29T23:59:60.1234567899+01:30` -/
def exampleFields : Fields where
  year := ['2', '0', '0', '0']
  month := ['0', '2']
  day := ['2', '9']
  hour := ['2', '3']
  minute := ['5', '9']
  second := ['6', '0']
  frac := some ['1', '2', '3', '4', '5', '6', '7', '8', '9', '9']
  zone := .ahead ['0', '1'] ['3', '0']

/-- C80: a leap second at the end of a leap day, with a fraction of ten digits, an hour and a half ahead of UTC: the hypotheses
hold, the day is the 11016th, and the text is read so. -/
theorem C80_example : exampleFields.Ok ∧
    (∃ a, exampleFields.On a ∧ Gregorian.DaysAfter Gregorian.epoch 11016 a) ∧
    parse (instForm [',', ' '] exampleFields) = .ok (.instant ⟨951863399, 1123456789⟩) [] := by
  have hok : exampleFields.Ok := by
    refine ⟨⟨rfl, by decide⟩, ⟨rfl, by decide⟩, ⟨rfl, by decide⟩, ⟨rfl, by decide⟩, ⟨rfl, by decide⟩, ⟨rfl, by decide⟩, ?_, ⟨rfl, by decide⟩,
      ⟨rfl, by decide⟩⟩
    rintro s ⟨⟩; exact ⟨by simp, by decide⟩
  have hon : exampleFields.On ⟨2000, 2, 29, by decide, by decide, by decide, by decide⟩ :=
    ⟨rfl, rfl, rfl, by decide, by decide, by decide, by decide, by decide⟩
  have hn : Gregorian.DaysAfter Gregorian.epoch 11016 ⟨2000, 2, 29, by decide, by decide, by decide, by decide⟩ :=
    (Gregorian.daysAfter_iff _ _).mpr (by decide)
  refine ⟨hok, ⟨_, hon, hn⟩, ?_⟩
  have := C80_reads (ws := [',', ' ']) ⟨by simp, by decide⟩ hok hon hn
  rw [this]
  rfl

/-- C80: the 29th of February 1900 was none: the hypotheses of `C80_rejects` hold of it. -/
theorem C80_rejects_example :
    parse (instForm [' '] { exampleFields with year := ['1', '9', '0', '0'] }) = .fail := by
  refine C80_rejects ⟨by simp, by decide⟩ ?_ ?_
  · obtain ⟨h1, -, -⟩ := C80_example
    exact { h1 with year := ⟨rfl, by decide⟩ }
  · rintro ⟨y, m, d, h1, h2, h3, h4⟩ ⟨e1, e2, e3, -⟩
    simp only at e1 e2 e3
    subst e1; subst e2; subst e3
    exact absurd h4 (by decide)

/-- C80: a leap second and the second after it are read as different instants. -/
theorem C80_leap_differs :
    parse "#inst \"2000-02-29T22:29:60Z\"".toList = .ok (.instant ⟨951863399, 1000000000⟩) [] ∧
    parse "#inst \"2000-02-29T22:30:00Z\"".toList = .ok (.instant ⟨951863400, 0⟩) [] :=
  ⟨by kernel_rfl, by kernel_rfl⟩

end Mentat
