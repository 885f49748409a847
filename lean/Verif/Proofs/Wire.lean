import Verif.Model.Wire
import Verif.Proofs.FloatText
import Verif.Proofs.InstText
/- What is read of the JSON written. -/
namespace Mentat.Wire

/-! ### Strings -/

theorem uf_plain {c : Char} (h : c ≠ '\\') (s : Text) :
    unescapeFrom none (c :: s) = if c = '"' ∨ c.toNat < 32 then none else (unescapeFrom none s).map (c :: ·) := by
  rw [unescapeFrom.eq_def]
  split <;> simp_all

theorem uf_esc {c : Char} (h : c ≠ 'u') (s : Text) :
    unescapeFrom none ('\\' :: c :: s) = (unescapeChar c).bind fun c => (unescapeFrom none s).map (c :: ·) := by
  rw [unescapeFrom.eq_def]
  split <;> simp_all
  · rename_i hs h'
    obtain ⟨rfl, rfl⟩ := h'
    exact absurd rfl (hs c s rfl)

theorem uf_hex {a b c d : Char} {n : Nat} (h : hex4 a b c d = some n) (hn : n < 0xD800) (s : Text) :
    unescapeFrom none ('\\' :: 'u' :: a :: b :: c :: d :: s) = (unescapeFrom none s).map (Char.ofNat n :: ·) := by
  rw [unescapeFrom, h]
  simp only [Option.bind_some]
  rw [if_neg (by omega), if_neg (by omega)]

theorem hex4_control : ∀ n < 32, hex4 '0' '0' (hexChar (n / 16)) (hexChar (n % 16)) = some n := by decide

theorem ofNat_toNat (c : Char) : Char.ofNat c.toNat = c := by simp

theorem uf_escapeChar (c : Char) (s : Text) :
    unescapeFrom none (escapeChar c ++ s) = (unescapeFrom none s).map (c :: ·) := by
  have hc := ofNat_toNat c
  unfold escapeChar
  split
  · subst c; exact uf_esc (by decide) s
  · split
    · subst c; exact uf_esc (by decide) s
    · split
      · rename_i h
        rw [h] at hc
        subst hc
        exact uf_esc (by decide) s
      · split
        · rename_i h
          rw [h] at hc
          subst hc
          exact uf_esc (by decide) s
        · split
          · rename_i h
            rw [h] at hc
            subst hc
            exact uf_esc (by decide) s
          · split
            · rename_i h
              rw [h] at hc
              subst hc
              exact uf_esc (by decide) s
            · split
              · rename_i h
                rw [h] at hc
                subst hc
                exact uf_esc (by decide) s
              · split
                · rename_i h
                  have := uf_hex (hex4_control c.toNat h) (by omega) s
                  rw [hc] at this
                  exact this
                · rename_i h1 h2 _ _ _ _ _ h3
                  show unescapeFrom none (c :: s) = _
                  rw [uf_plain h2, if_neg]
                  simp [h1, h3]

theorem unescape_escape (s : Text) : unescape (escape s) = some s := by
  unfold unescape
  induction s with
  | nil => rfl
  | cons c s ih => rw [escape, uf_escapeChar, ih]; rfl

/-- A character that is written escaped. -/
def Escaped (c : Char) : Prop := c = '"' ∨ c = '\\' ∨ c.toNat < 32

theorem backslash_escapeChar (c : Char) : '\\' ∈ escapeChar c ↔ Escaped c := by
  unfold Escaped escapeChar
  split
  · simp_all
  · split
    · simp_all
    · rename_i h1 h2
      simp only [h1, h2, false_or]
      split
      · simp; omega
      · split
        · simp; omega
        · split
          · simp; omega
          · split
            · simp; omega
            · split
              · simp; omega
              · split
                · rename_i h; simp [h]
                · rename_i h; simp [h, Ne.symm h2]

theorem backslash_escape (s : Text) : '\\' ∈ escape s ↔ ∃ c ∈ s, Escaped c := by
  induction s with
  | nil => simp [escape]
  | cons c s ih => rw [escape, List.mem_append, backslash_escapeChar, ih]; simp

theorem borrowed_escape (s : Text) (h : ∀ c ∈ s, ¬ Escaped c) : borrowed (escape s) = some s := by
  unfold borrowed
  rw [if_neg, unescape_escape]
  rw [backslash_escape]
  rintro ⟨c, hc, he⟩
  exact h c hc he

theorem borrowed_none (s : Text) (h : ∃ c ∈ s, Escaped c) : borrowed (escape s) = none := by
  unfold borrowed
  rw [if_pos]
  rw [backslash_escape]
  exact h

/-! ### Doubles -/

theorem dropZeros_spec : ∀ w f, (dropZeros w f).2 ≤ w ∧ f = (dropZeros w f).1 * 10 ^ (w - (dropZeros w f).2)
  | 0, f => by simp [dropZeros]
  | w + 1, f => by
    rw [dropZeros]
    split
    · rename_i h
      obtain ⟨h1, h2⟩ := dropZeros_spec w (f / 10)
      refine ⟨by omega, ?_⟩
      rw [show w + 1 - (dropZeros w (f / 10)).2 = (w - (dropZeros w (f / 10)).2) + 1 by omega, Nat.pow_succ, ← Nat.mul_assoc, ← h2]
      omega
    · simp

/-- The digits and the exponent of a number with its last zeros dropped. -/
theorem parts_eq (c : Nat) (b : Bool) {f : Nat × Nat} {N : Nat} (h1 : f.2 ≤ N + 309) (h2 : c = f.1 * 10 ^ (N + 309 - f.2)) (hN : 1 ≤ N)
    (hb : b = true → 0 ≤ (309 : Int) - f.2) :
    0 ≤ (N : Int) + (if b then (f.1 * 10 ^ (((309 : Int) - f.2).toNat + 1), (-1 : Int)) else (f.1, (309 : Int) - f.2)).2 ∧
    c = (if b then (f.1 * 10 ^ (((309 : Int) - f.2).toNat + 1), (-1 : Int)) else (f.1, (309 : Int) - f.2)).1 *
      10 ^ ((N : Int) + (if b then (f.1 * 10 ^ (((309 : Int) - f.2).toNat + 1), (-1 : Int)) else (f.1, (309 : Int) - f.2)).2).toNat := by
  subst h2
  cases b with
  | true =>
    have hk := hb rfl
    have e : ((309 : Int) - f.2).toNat + 1 + ((N : Int) + -1).toNat = N + 309 - f.2 := by omega
    refine ⟨by simp only [if_true]; omega, ?_⟩
    simp only [if_true]
    rw [Nat.mul_assoc, ← Nat.pow_add, e]
  | false =>
    have e : ((N : Int) + (309 - f.2)).toNat = N + 309 - f.2 := by omega
    refine ⟨by simp only [Bool.false_eq_true, if_false]; omega, ?_⟩
    simp only [Bool.false_eq_true, if_false, e]

/-- What is written for a double are its shortest digits. -/
theorem floatParts_spec (d : Int) : 0 ≤ ((1074 : Nat) : Int) + (floatParts d).2 ∧
    shortest d.natAbs = (floatParts d).1 * 10 ^ (((1074 : Nat) : Int) + (floatParts d).2).toNat := by
  unfold floatParts
  simp only
  generalize shortest d.natAbs = c
  by_cases h : c = 0
  · rw [if_pos h]
    refine ⟨by simp only; decide, ?_⟩
    rw [h, Nat.zero_mul]
  · rw [if_neg h]
    obtain ⟨h1, h2⟩ := dropZeros_spec 1383 c
    generalize dropZeros 1383 c = f at *
    have := parts_eq c (decide (0 ≤ (309 : Int) - f.2 ∧ ((decimal f.1).length : Int) + (309 - f.2) ≤ 16)) (N := 1074) h1 h2 (by decide)
      (fun hb => (of_decide_eq_true hb).1)
    simp only [decide_eq_true_eq] at this
    exact this

theorem isDouble_small {m : Nat} (k : Nat) (h : m < 2 ^ 53) (hk : k ≤ 2045) : IsDouble (m * 2 ^ k) := by
  refine ⟨m, k, h, rfl, ?_⟩
  calc m * 2 ^ k < 2 ^ 53 * 2 ^ k := Nat.mul_lt_mul_of_pos_right h (Nat.two_pow_pos k)
    _ = 2 ^ (53 + k) := by rw [Nat.pow_add]
    _ ≤ 2 ^ 2098 := Nat.pow_le_pow_right (by decide) (by omega)

theorem pow10_small {n : Nat} (h : n ≤ 22) : pow10 n = 10 ^ n * 2 ^ 1074 := by
  have hd : IsDouble (10 ^ n * 2 ^ 1074) := by
    rw [ten_pow, Nat.mul_assoc, ← Nat.pow_add]
    refine isDouble_small _ ?_ (by omega)
    exact Nat.lt_of_le_of_lt (Nat.pow_le_pow_right (by decide) h) (by decide)
  have := roundDouble_exact hd (den := 1) (by decide)
  unfold pow10 asDouble
  rw [Nat.mul_one] at this
  rw [this]
  rfl

theorem read_up (sig n N : Nat) {P : Nat} (hp : 0 < P) :
    roundDouble (sig * P * (10 ^ n * P)) P = roundDouble (sig * 10 ^ (N + n) * P) (10 ^ N) := by
  have ht : 0 < 10 ^ N := Nat.pow_pos (by decide)
  have e1 : sig * P * (10 ^ n * P) = P * (sig * P * 10 ^ n) := by ac_rfl
  have e2 : sig * 10 ^ (N + n) * P = 10 ^ N * (sig * P * 10 ^ n) := by rw [Nat.pow_add]; ac_rfl
  rw [e1, e2]
  have h1 := roundDouble_scale hp (sig * P * 10 ^ n) 1
  have h2 := roundDouble_scale ht (sig * P * 10 ^ n) 1
  rw [Nat.mul_one] at h1 h2
  rw [h1, h2]

theorem read_down (sig n m : Nat) {P : Nat} (hp : 0 < P) :
    roundDouble (sig * P * P) (10 ^ n * P) = roundDouble (sig * 10 ^ m * P) (10 ^ (m + n)) := by
  have ht : 0 < 10 ^ m := Nat.pow_pos (by decide)
  rw [show sig * P * P = P * (sig * P) by ac_rfl, show 10 ^ n * P = P * 10 ^ n by ac_rfl, roundDouble_scale hp,
    show sig * 10 ^ m * P = 10 ^ m * (sig * P) by ac_rfl, Nat.pow_add, roundDouble_scale ht]

theorem scale_small {f n : Nat} {e : Int} (he : e.natAbs ≤ 22) : scale (n + 1) f e =
    if 0 ≤ e then roundDouble (f * (10 ^ e.natAbs * 2 ^ 1074)) (2 ^ 1074) else roundDouble (f * 2 ^ 1074) (10 ^ e.natAbs * 2 ^ 1074) := by
  rw [scale, if_pos (Nat.le_trans he (by decide)), pow10_small he]

theorem read_small {v sig : Nat} {e : Int} (hv : readUnits (sig * 10 ^ (((1074 : Nat) : Int) + e).toNat) = some v) (hs : sig < 2 ^ 53)
    (he : e.natAbs ≤ 22) : readDouble sig e = some v := by
  have h1 : asDouble sig = some (sig * 2 ^ 1074) := by
    unfold asDouble
    have := roundDouble_exact (isDouble_small 1074 hs (by decide)) (den := 1) (by decide)
    rwa [Nat.mul_one] at this
  have hp : (0 : Nat) < 2 ^ 1074 := Nat.two_pow_pos _
  unfold readDouble
  rw [h1, Option.bind_some, scale_small he, ← hv]
  unfold readUnits
  by_cases h0 : 0 ≤ e
  · have e1 : (((1074 : Nat) : Int) + e).toNat = 1074 + e.natAbs := by omega
    rw [if_pos h0, e1]
    exact read_up sig e.natAbs 1074 hp
  · have e1 : (1074 : Nat) = (((1074 : Nat) : Int) + e).toNat + e.natAbs := by omega
    rw [if_neg h0]
    have := read_down sig e.natAbs (((1074 : Nat) : Int) + e).toNat hp
    rw [← e1] at this
    exact this

theorem sign_natAbs (d : Int) : (if decide (d < 0) = true then - (d.natAbs : Int) else (d.natAbs : Int)) = d := by
  by_cases h : d < 0
  · rw [if_pos (by simp [h])]; omega
  · rw [if_neg (by simp [h])]; omega

/-- A double written with few digits and a small exponent is read back. -/
theorem decodeFloat_small {d : Int} (hd : IsDouble d.natAbs) (hs : (floatParts d).1 < 2 ^ 53)
    (he : (floatParts d).2.natAbs ≤ 22) : decodeFloat (encodeFloat (.finite d)) = .ok d := by
  have h := shortest_reads hd
  rw [(floatParts_spec d).2] at h
  have h' := read_small h hs he
  rw [encodeFloat, decodeFloat, h', signed, sign_natAbs]

end Mentat.Wire
