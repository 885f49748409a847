import Verif.Model.FloatText
/- Reading the text of doubles. -/
namespace Mentat

/-- A finite double: a significand of 53 bits, shifted, within the range. -/
def IsDouble (v : Nat) : Prop := ∃ m k, m < 2 ^ 53 ∧ v = m * 2 ^ k ∧ v < 2 ^ 2098

theorem roundDouble_scale {c : Nat} (hc : 0 < c) (num den : Nat) : roundDouble (c * num) (c * den) = roundDouble num den := by
  unfold roundDouble
  simp only [Nat.mul_div_mul_left _ _ hc, Nat.mul_assoc c den, Nat.mul_mod_mul_left, Nat.mul_left_comm 2 c, Nat.mul_lt_mul_left hc]
  have : ∀ a b : Nat, (c * a == c * b) = (a == b) := by
    intro a b
    rw [Bool.eq_iff_iff, beq_iff_eq, beq_iff_eq]
    exact ⟨fun h => Nat.eq_of_mul_eq_mul_left hc h, fun h => by rw [h]⟩
  simp only [this]

theorem roundDouble_exact {v den : Nat} (h : IsDouble v) (hd : 0 < den) : roundDouble (v * den) den = some v := by
  obtain ⟨m, j, hm, hv, hlt⟩ := h
  have hdvd : 2 ^ (v.log2 - 52) ∣ v := by
    by_cases h0 : v = 0
    · rw [h0]; exact Nat.dvd_zero _
    · rw [hv] at h0 ⊢
      refine Nat.dvd_mul_left_of_dvd (Nat.pow_dvd_pow 2 ?_) m
      have h1 : (m * 2 ^ j).log2 < 53 + j := by
        rw [Nat.log2_lt h0, Nat.pow_add]
        exact Nat.mul_lt_mul_of_pos_right hm (Nat.two_pow_pos j)
      omega
  obtain ⟨q, hq⟩ := hdvd
  unfold roundDouble
  simp only [Nat.mul_div_cancel _ hd]
  generalize v.log2 - 52 = k at *
  have hu : 0 < den * 2 ^ k := Nat.mul_pos hd (Nat.two_pow_pos k)
  have e : v * den = q * (den * 2 ^ k) := by
    rw [hq, Nat.mul_comm (2 ^ k) q, Nat.mul_assoc, Nat.mul_comm (2 ^ k)]
  rw [e, Nat.mul_div_cancel _ hu, Nat.mul_mod_left]
  have hn : (decide (den * 2 ^ k < 2 * 0) || 2 * 0 == den * 2 ^ k && q % 2 == 1) = false := by
    have : (2 * 0 == den * 2 ^ k) = false := by simp; omega
    simp [this]
  rw [hn]
  simp only [Bool.false_eq_true, if_false]
  rw [Nat.mul_comm q, ← hq, if_pos hlt]

theorem ten_pow (n : Nat) : 10 ^ n = 5 ^ n * 2 ^ n := by rw [← Nat.mul_pow]

theorem readUnits_exact {v : Nat} (h : IsDouble v) : readUnits (v * 5 ^ 1074) = some v := by
  unfold readUnits
  rw [Nat.mul_assoc, ← ten_pow]
  exact roundDouble_exact h (Nat.pow_pos (by decide))

theorem shortestFrom_reads {v : Nat} (h : IsDouble v) (k : Nat) : readUnits (shortestFrom v k) = some v := by
  induction k with
  | zero => exact readUnits_exact h
  | succ k ih =>
    unfold shortestFrom
    simp only
    split
    · rename_i hc
      rw [Bool.and_eq_true] at hc
      exact beq_iff_eq.mp hc.1
    · split
      · rename_i hc
        exact beq_iff_eq.mp hc
      · exact ih

theorem shortest_reads {v : Nat} (h : IsDouble v) : readUnits (shortest v) = some v := shortestFrom_reads h _

theorem roundDouble_digits {a b w n : Nat} (hw : w ≤ a) :
    roundDouble (n * 10 ^ (a - w) * 2 ^ b) (10 ^ a) = roundDouble (n * 2 ^ b) (10 ^ w) := by
  have h1 : 10 ^ a = 10 ^ (a - w) * 10 ^ w := by rw [← Nat.pow_add, Nat.sub_add_cancel hw]
  have h2 : n * 10 ^ (a - w) * 2 ^ b = 10 ^ (a - w) * (n * 2 ^ b) := by
    rw [Nat.mul_comm n, Nat.mul_assoc]
  rw [h1, h2, roundDouble_scale (Nat.pow_pos (by decide))]

theorem ite_some {c : Prop} [Decidable c] {a b : Nat} (h : (if c then some a else none) = some b) : c ∧ a = b := by
  by_cases hc : c
  · rw [if_pos hc] at h; exact ⟨hc, Option.some.inj h⟩
  · rw [if_neg hc] at h; cases h

theorem roundDouble_some {num den v : Nat} (h : roundDouble num den = some v) :
    v < 2 ^ 2098 ∧ ∃ q, v = q * 2 ^ ((num / den).log2 - 52) := by
  unfold roundDouble at h
  have := ite_some h
  exact ⟨this.2 ▸ this.1, _, this.2.symm⟩

theorem roundDouble_whole {a m v : Nat} (ha : a ≤ 2045) (h : roundDouble (m * 2 ^ a) 1 = some v) : 2 ^ a ∣ v := by
  by_cases hm : m < 2 ^ 53
  · have hd : IsDouble (m * 2 ^ a) := by
      refine ⟨m, a, hm, rfl, ?_⟩
      have h1 : m * 2 ^ a < 2 ^ 53 * 2 ^ a := Nat.mul_lt_mul_of_pos_right hm (Nat.two_pow_pos _)
      rw [← Nat.pow_add] at h1
      exact Nat.lt_of_lt_of_le h1 (Nat.pow_le_pow_right (by decide) (by omega))
    have := roundDouble_exact hd Nat.one_pos
    rw [Nat.mul_one, h] at this
    cases this
    exact Nat.dvd_mul_left _ _
  · have hm0 : m ≠ 0 := by rintro rfl; exact hm (Nat.two_pow_pos _)
    have hk : a ≤ (m * 2 ^ a / 1).log2 - 52 := by
      rw [Nat.div_one]
      have : 53 + a ≤ (m * 2 ^ a).log2 := by
        rw [Nat.le_log2 (Nat.mul_ne_zero hm0 (Nat.pos_iff_ne_zero.mp (Nat.two_pow_pos _))), Nat.pow_add]
        exact Nat.mul_le_mul_right _ (Nat.le_of_not_lt hm)
      omega
    obtain ⟨q, rfl⟩ := (roundDouble_some h).2
    exact Nat.dvd_mul_left_of_dvd (Nat.pow_dvd_pow 2 hk) _

/-- A decimal without fraction reads as a double without fraction. -/
theorem readUnits_whole {m v : Nat} (h : readUnits (m * 10 ^ 1074) = some v) : 2 ^ 1074 ∣ v := by
  have e : readUnits (m * 10 ^ 1074) = roundDouble (m * 2 ^ 1074) 1 := by
    unfold readUnits
    rw [← roundDouble_scale (c := 10 ^ 1074) (Nat.pow_pos (by decide)) (m * 2 ^ 1074) 1, Nat.mul_one, Nat.mul_comm m,
      Nat.mul_assoc]
  rw [e] at h
  exact roundDouble_whole (by omega) h

/-- A double without fraction is printed without one. -/
theorem shortestFrom_whole {n : Nat} (h : IsDouble (n * 2 ^ 1074)) {k : Nat} (hk : 1074 ≤ k) :
    10 ^ 1074 ∣ shortestFrom (n * 2 ^ 1074) k := by
  have hD : n * 2 ^ 1074 * 5 ^ 1074 = n * 10 ^ 1074 := by rw [Nat.mul_assoc, Nat.mul_comm (2 ^ 1074), ← ten_pow]
  induction k with
  | zero => omega
  | succ k ih =>
    have hp : 10 ^ 1074 ∣ 10 ^ (k + 1) := Nat.pow_dvd_pow 10 hk
    unfold shortestFrom
    simp only
    have hlo : 10 ^ 1074 ∣ n * 2 ^ 1074 * 5 ^ 1074 / 10 ^ (k + 1) * 10 ^ (k + 1) := Nat.dvd_mul_left_of_dvd hp _
    split
    · exact Nat.dvd_add hlo hp
    · split
      · exact hlo
      · rename_i hd
        by_cases hk' : 1074 ≤ k
        · exact ih hk'
        · have hk1 : k + 1 = 1074 := by omega
          exfalso
          apply hd
          rw [beq_iff_eq, hk1, hD, Nat.mul_div_cancel _ (Nat.pow_pos (by decide)), ← hD]
          exact readUnits_exact h

theorem dropZeros_spec {w f : Nat} (h : f < 10 ^ w) : (dropZeros w f).1 * 10 ^ (w - (dropZeros w f).2) = f ∧
    (dropZeros w f).1 < 10 ^ (dropZeros w f).2 ∧ (dropZeros w f).2 ≤ w := by
  induction w generalizing f with
  | zero => exact ⟨by simp [dropZeros], by simpa [dropZeros] using h, by simp [dropZeros]⟩
  | succ w ih =>
    unfold dropZeros
    split
    · rename_i h0
      have hw : f / 10 < 10 ^ w := by rw [Nat.div_lt_iff_lt_mul (by decide), ← Nat.pow_succ]; exact h
      obtain ⟨h1, h2, h3⟩ := ih hw
      refine ⟨?_, h2, by omega⟩
      have : w + 1 - (dropZeros w (f / 10)).2 = (w - (dropZeros w (f / 10)).2) + 1 := by omega
      rw [this, Nat.pow_succ, ← Nat.mul_assoc, h1]
      omega
    · exact ⟨by simp, h, Nat.le_refl _⟩

theorem dropZeros_zero {w f : Nat} (h : f < 10 ^ w) : (dropZeros w f).2 = 0 ↔ f = 0 := by
  obtain ⟨h1, h2, -⟩ := dropZeros_spec h
  constructor
  · intro h0
    rw [h0] at h2
    have : (dropZeros w f).1 = 0 := by omega
    rw [this] at h1
    omega
  · rintro rfl
    clear h h1 h2
    induction w with
    | zero => rfl
    | succ w ih => simpa [dropZeros] using ih

/-- What the digits before and after the point are. -/
theorem unitsText_cases (c : Nat) :
    (10 ^ 1074 ∣ c ∧ unitsText c = decimal (c / 10 ^ 1074)) ∨
    ∃ i w f, 0 < w ∧ f < 10 ^ w ∧ w ≤ 1074 ∧ c = (i * 10 ^ w + f) * 10 ^ (1074 - w) ∧ ¬ 10 ^ 1074 ∣ c ∧
      unitsText c = decimal i ++ '.' :: padded 10 w f := by
  have hlt : c % 10 ^ 1074 < 10 ^ 1074 := Nat.mod_lt _ (Nat.pow_pos (by decide))
  obtain ⟨h1, h2, h3⟩ := dropZeros_spec hlt
  have hz := dropZeros_zero hlt
  unfold unitsText
  simp only
  by_cases h0 : (dropZeros 1074 (c % 10 ^ 1074)).2 = 0
  · left
    rw [if_pos h0, List.append_nil]
    exact ⟨Nat.dvd_of_mod_eq_zero (hz.mp h0), rfl⟩
  · right
    rw [if_neg h0]
    refine ⟨_, _, _, Nat.pos_of_ne_zero h0, h2, h3, ?_, fun hd => h0 (hz.mpr (Nat.mod_eq_zero_of_dvd hd)), rfl⟩
    generalize (dropZeros 1074 (c % 10 ^ 1074)) = p at *
    rw [Nat.add_mul, h1, Nat.mul_assoc, ← Nat.pow_add]
    have : p.2 + (1074 - p.2) = 1074 := by omega
    rw [this, Nat.mul_comm]
    exact (Nat.div_add_mod c (10 ^ 1074)).symm

/-- A double without a fraction is printed without a point. -/
theorem shortest_whole {v : Nat} (h : IsDouble v) (hw : 2 ^ 1074 ∣ v) : 10 ^ 1074 ∣ shortest v := by
  obtain ⟨n, hn⟩ := hw
  rw [Nat.mul_comm] at hn
  rw [hn] at h ⊢
  exact shortestFrom_whole h (by decide)

end Mentat
