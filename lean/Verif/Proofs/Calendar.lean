import Verif.Model.Calendar
import Verif.Spec.Calendar
/- The day numbers of chrono are those of the Gregorian calendar. -/
namespace Mentat
namespace Date

/-- The month and the day exist. -/
def Valid (t : Date) : Prop := 1 ≤ t.m ∧ t.m ≤ 12 ∧ 1 ≤ t.d ∧ t.d ≤ daysIn t.y t.m

instance (t : Date) : Decidable t.Valid := inferInstanceAs (Decidable (_ ∧ _))

theorem isLeap_iff' (y : Int) : isLeap y = true ↔ (y % 4 = 0 ∧ (y % 100 ≠ 0 ∨ y % 400 = 0)) := by simp [isLeap]

theorem isLeap_iff (y : Int) : isLeap y = true ↔ Gregorian.Leap y := by
  rw [isLeap_iff']; unfold Gregorian.Leap; omega

theorem daysIn_eq {y m : Int} (h1 : 1 ≤ m) (h2 : m ≤ 12) : daysIn y m = Gregorian.monthDays y m := by
  have : m = 1 ∨ m = 2 ∨ m = 3 ∨ m = 4 ∨ m = 5 ∨ m = 6 ∨ m = 7 ∨ m = 8 ∨ m = 9 ∨ m = 10 ∨ m = 11 ∨ m = 12 := by omega
  rcases this with rfl | rfl | rfl | rfl | rfl | rfl | rfl | rfl | rfl | rfl | rfl | rfl <;>
    simp [daysIn, Gregorian.monthDays, isLeap_iff]

theorem step4 (y : Int) : y / 4 = (y - 1) / 4 + if y % 4 = 0 then 1 else 0 := by split <;> omega
theorem step100 (y : Int) : y / 100 = (y - 1) / 100 + if y % 100 = 0 then 1 else 0 := by split <;> omega
theorem step400 (y : Int) : y / 400 = (y - 1) / 400 + if y % 400 = 0 then 1 else 0 := by split <;> omega

/-- Leap days before a year that begins in March. -/
def leaps (y : Int) : Int := y / 4 - y / 100 + y / 400

theorem leaps_step (y : Int) : leaps y = leaps (y - 1) + if isLeap y then 1 else 0 := by
  unfold leaps
  rw [step4, step100, step400]
  have h1 : y % 100 = 0 → y % 4 = 0 := by omega
  have h2 : y % 400 = 0 → y % 100 = 0 := by omega
  by_cases a : y % 4 = 0 <;> by_cases b : y % 100 = 0 <;> by_cases c : y % 400 = 0 <;>
    simp [isLeap, a, b, c] at h1 h2 ⊢ <;> omega

/-- The day of the year that begins in March, from 0. -/
def marchDay (mp d : Int) : Int := (153 * mp + 2) / 5 + (d - 1)

theorem dayNumber_eq (t : Date) : dayNumber t =
    if t.m ≤ 2 then 365 * (t.y - 1) + leaps (t.y - 1) + marchDay (t.m + 9) t.d - 719468
    else 365 * t.y + leaps t.y + marchDay (t.m - 3) t.d - 719468 := by
  unfold dayNumber leaps marchDay
  simp only
  split <;> omega

/-- The years of an era. -/
theorem era (z : Int) : ∃ y doy : Int, 0 ≤ doy ∧ doy ≤ 365 ∧ (doy = 365 → isLeap (y + 1) = true) ∧ z = 365 * y + leaps y + doy ∧
    (let doe := z % 146097
     let c := min 3 (doe / 36524)
     let q := doe - 36524 * c
     let r := q % 1461
     let yy := min 3 (r / 365)
     doy = r - 365 * yy ∧ y = 400 * (z / 146097) + 100 * c + 4 * (q / 1461) + yy) := by
  generalize hd : z % 146097 = doe
  generalize he : z / 146097 = e
  have hz : z = 146097 * e + doe := by omega
  have hdoe : 0 ≤ doe ∧ doe < 146097 := by omega
  generalize hc : min 3 (doe / 36524) = c
  have hc' : 0 ≤ c ∧ c ≤ 3 ∧ 36524 * c ≤ doe ∧ (c < 3 → doe < 36524 * c + 36524) ∧ (c = 3 → doe ≤ 36524 * 3 + 36524) := by
    omega
  generalize hq : doe - 36524 * c = q
  have hq' : 0 ≤ q ∧ q ≤ 36524 ∧ (c < 3 → q < 36524) := by omega
  generalize hr : q % 1461 = r
  generalize hk : q / 1461 = k
  have hqk : q = 1461 * k + r ∧ 0 ≤ r ∧ r < 1461 := by omega
  have hk' : 0 ≤ k ∧ k ≤ 24 := by omega
  generalize hyy : min 3 (r / 365) = yy
  have hyy' : 0 ≤ yy ∧ yy ≤ 3 ∧ 365 * yy ≤ r ∧ (yy < 3 → r < 365 * yy + 365) ∧ (yy = 3 → r ≤ 1460) := by omega
  have hy4 : (400 * e + 100 * c + 4 * k + yy) / 4 = 100 * e + 25 * c + k := by omega
  have hy100 : (400 * e + 100 * c + 4 * k + yy) / 100 = 4 * e + c := by omega
  have hy400 : (400 * e + 100 * c + 4 * k + yy) / 400 = e := by omega
  refine ⟨400 * e + 100 * c + 4 * k + yy, r - 365 * yy, by omega, by omega, ?_, ?_, by simp only [hc, hq, hr, hyy], by simp only [hc, hq, hr, hk, hyy]⟩
  · intro h
    rw [isLeap_iff']
    have : yy = 3 ∧ r = 1460 := by omega
    obtain ⟨rfl, rfl⟩ := this
    refine ⟨by omega, ?_⟩
    by_cases hk24 : k = 24
    · right; omega
    · left; omega
  · unfold leaps
    rw [hy4, hy100, hy400]
    omega

theorem marchDay_inv {doy : Int} (h0 : 0 ≤ doy) (h1 : doy ≤ 365) :
    let mp := (5 * doy + 2) / 153
    let d := doy - (153 * mp + 2) / 5 + 1
    0 ≤ mp ∧ mp ≤ 11 ∧ 1 ≤ d ∧ marchDay mp d = doy ∧ (mp = 11 → d ≤ 29 ∧ (d = 29 → doy = 365)) ∧
    ((mp = 1 ∨ mp = 3 ∨ mp = 6 ∨ mp = 8) → d ≤ 30) ∧ d ≤ 31 := by
  simp only [marchDay]
  omega

theorem ofDayNumber_spec (n : Int) : (ofDayNumber n).Valid ∧ dayNumber (ofDayNumber n) = n := by
  obtain ⟨y, doy, h0, h1, hl, hz, hd, hy⟩ := era (n + 719468)
  obtain ⟨m0, m1, m2, m3, m4, m5, m6⟩ := marchDay_inv h0 h1
  have e : ofDayNumber n = if (5 * doy + 2) / 153 < 10 then ⟨y, (5 * doy + 2) / 153 + 3, doy - (153 * ((5 * doy + 2) / 153) + 2) / 5 + 1⟩
      else ⟨y + 1, (5 * doy + 2) / 153 - 9, doy - (153 * ((5 * doy + 2) / 153) + 2) / 5 + 1⟩ := by
    rw [ofDayNumber, ← hd, ← hy]
  rw [e]
  generalize (5 * doy + 2) / 153 = mp at *
  generalize doy - (153 * mp + 2) / 5 + 1 = d at *
  split
  · rename_i hmp
    refine ⟨⟨by simp only; omega, by simp only; omega, m2, ?_⟩, ?_⟩
    · simp only [daysIn]
      rw [if_neg (by omega)]
      split <;> omega
    · rw [dayNumber_eq]
      simp only
      rw [if_neg (by omega), show mp + 3 - 3 = mp by omega, m3]; omega
  · rename_i hmp
    refine ⟨⟨by simp only; omega, by simp only; omega, m2, ?_⟩, ?_⟩
    · simp only [daysIn]
      by_cases h11 : mp = 11
      · subst h11
        rw [if_pos (by omega)]
        split
        · exact (m4 rfl).1
        · rename_i hnl
          have := m4 rfl
          by_cases d29 : d = 29
          · exact absurd (hl (this.2 d29)) hnl
          · omega
      · rw [if_neg (by omega), if_neg (by omega)]; omega
    · rw [dayNumber_eq]
      simp only
      rw [if_pos (by omega), show mp - 9 + 9 = mp by omega, m3, show y + 1 - 1 = y by omega]; omega

theorem leaps_mono (y : Int) (n : Nat) : leaps y ≤ leaps (y + n) := by
  induction n with
  | zero => simp
  | succ n ih =>
    have := leaps_step (y + (n + 1 : Nat))
    rw [show y + ((n + 1 : Nat) : Int) - 1 = y + n by omega] at this
    rw [this]; split <;> omega

/-- A day is in one year only. -/
theorem era_unique {y y' doy doy' : Int} (h0 : 0 ≤ doy) (h1 : doy ≤ 365) (hl : doy = 365 → isLeap (y + 1) = true) (h0' : 0 ≤ doy')
    (h1' : doy' ≤ 365) (hl' : doy' = 365 → isLeap (y' + 1) = true) (h : 365 * y + leaps y + doy = 365 * y' + leaps y' + doy') :
    y = y' ∧ doy = doy' := by
  have key : ∀ {y y' doy doy' : Int}, doy ≤ 365 → (doy = 365 → isLeap (y + 1) = true) → 0 ≤ doy' →
      365 * y + leaps y + doy = 365 * y' + leaps y' + doy' → ¬ y < y' := by
    intro y y' doy doy' h1 hl h0' h hlt
    have hs := leaps_step (y + 1)
    rw [show y + 1 - 1 = y by omega] at hs
    have hm := leaps_mono (y + 1) (y' - (y + 1)).toNat
    rw [show y + 1 + ((y' - (y + 1)).toNat : Int) = y' by omega] at hm
    by_cases hL : isLeap (y + 1) = true
    · rw [if_pos hL] at hs; omega
    · rw [if_neg hL] at hs
      have : doy ≠ 365 := fun e => hL (hl e)
      omega
  have a := key h1 hl h0' h
  have b := key h1' hl' h0 h.symm
  have : y = y' := by omega
  subst this
  exact ⟨rfl, by omega⟩

/-- A valid date in a year that begins in March. -/
theorem valid_march {t : Date} (h : t.Valid) : ∃ y mp : Int, 0 ≤ mp ∧ mp ≤ 11 ∧ 1 ≤ t.d ∧ t.d ≤ 31 ∧
    ((mp = 1 ∨ mp = 3 ∨ mp = 6 ∨ mp = 8) → t.d ≤ 30) ∧ (mp = 11 → t.d ≤ 29 ∧ (t.d = 29 → isLeap (y + 1) = true)) ∧
    t = (if mp < 10 then ⟨y, mp + 3, t.d⟩ else ⟨y + 1, mp - 9, t.d⟩) ∧
    dayNumber t = 365 * y + leaps y + marchDay mp t.d - 719468 := by
  obtain ⟨ty, tm, td⟩ := t
  obtain ⟨h1, h2, h3, h4⟩ := h
  simp only at h1 h2 h3 h4
  rw [dayNumber_eq]
  simp only
  unfold daysIn at h4
  by_cases hm : tm ≤ 2
  · refine ⟨ty - 1, tm + 9, by omega, by omega, h3, ?_, ?_, ?_, ?_, ?_⟩
    · split at h4
      · split at h4 <;> omega
      · split at h4 <;> omega
    · omega
    · intro e
      rw [if_pos (by omega)] at h4
      rw [show ty - 1 + 1 = ty by omega]
      split at h4
      · rename_i hl; exact ⟨h4, fun _ => hl⟩
      · exact ⟨by omega, by omega⟩
    · rw [if_neg (by omega)]; simp
    · rw [if_pos hm]
  · rw [if_neg (by omega)] at h4
    refine ⟨ty, tm - 3, by omega, by omega, h3, ?_, ?_, ?_, ?_, ?_⟩
    · split at h4 <;> omega
    · intro _; rw [if_pos (by omega)] at h4; exact h4
    · omega
    · rw [if_pos (by omega)]; simp
    · rw [if_neg hm]

theorem marchDay_bounds {mp d : Int} (h0 : 0 ≤ mp) (h1 : mp ≤ 11) (h2 : 1 ≤ d) (h3 : d ≤ 31)
    (h4 : (mp = 1 ∨ mp = 3 ∨ mp = 6 ∨ mp = 8) → d ≤ 30) (h5 : mp = 11 → d ≤ 29) :
    0 ≤ marchDay mp d ∧ marchDay mp d ≤ 365 ∧ (marchDay mp d = 365 → mp = 11 ∧ d = 29) ∧
    (5 * marchDay mp d + 2) / 153 = mp := by
  unfold marchDay
  have : mp = 0 ∨ mp = 1 ∨ mp = 2 ∨ mp = 3 ∨ mp = 4 ∨ mp = 5 ∨ mp = 6 ∨ mp = 7 ∨ mp = 8 ∨ mp = 9 ∨ mp = 10 ∨ mp = 11 := by omega
  rcases this with rfl | rfl | rfl | rfl | rfl | rfl | rfl | rfl | rfl | rfl | rfl | rfl <;>
    (simp at h4 h5; omega)

/-- Two dates that exist are different days. -/
theorem dayNumber_injective {s t : Date} (hs : s.Valid) (ht : t.Valid) (h : dayNumber s = dayNumber t) : s = t := by
  obtain ⟨y, mp, a1, a2, a3, a4, a5, a6, a7, a8⟩ := valid_march hs
  obtain ⟨y', mp', b1, b2, b3, b4, b5, b6, b7, b8⟩ := valid_march ht
  obtain ⟨c1, c2, c3, c4⟩ := marchDay_bounds a1 a2 a3 a4 a5 fun e => (a6 e).1
  obtain ⟨d1, d2, d3, d4⟩ := marchDay_bounds b1 b2 b3 b4 b5 fun e => (b6 e).1
  obtain ⟨e1, e2⟩ := era_unique c1 c2 (fun e => (a6 (c3 e).1).2 (c3 e).2) d1 d2 (fun e => (b6 (d3 e).1).2 (d3 e).2) (by omega)
  have e3 : mp = mp' := by rw [← c4, ← d4, e2]
  subst e1; subst e3
  have e4 : s.d = t.d := by unfold marchDay at e2; omega
  rw [a7, b7, e4]

theorem ofDayNumber_dayNumber {t : Date} (h : t.Valid) : ofDayNumber (dayNumber t) = t :=
  dayNumber_injective (ofDayNumber_spec _).1 h (ofDayNumber_spec _).2

end Date

/-! ### Counting days -/
namespace Gregorian

/-- The date of a day. -/
def Day.date (a : Day) : Date := ⟨a.year, a.month, a.day⟩

theorem Day.valid (a : Day) : a.date.Valid :=
  ⟨a.month_pos, a.month_le, a.day_pos, by
    show a.day ≤ Date.daysIn a.year a.month
    rw [Date.daysIn_eq a.month_pos a.month_le]; exact a.day_le⟩

theorem Day.ext' {a b : Day} (h : a.date = b.date) : a = b := by
  obtain ⟨_, _, _, _, _, _, _⟩ := a
  obtain ⟨_, _, _, _, _, _, _⟩ := b
  simp only [Day.date, Date.mk.injEq] at h
  obtain ⟨rfl, rfl, rfl⟩ := h
  rfl

theorem marchDay_next {m : Int} (h0 : 0 ≤ m) (h1 : m ≤ 10) :
    Date.marchDay (m + 1) 1 = Date.marchDay m (if m = 1 ∨ m = 3 ∨ m = 6 ∨ m = 8 then 30 else 31) + 1 := by
  unfold Date.marchDay
  have : m = 0 ∨ m = 1 ∨ m = 2 ∨ m = 3 ∨ m = 4 ∨ m = 5 ∨ m = 6 ∨ m = 7 ∨ m = 8 ∨ m = 9 ∨ m = 10 := by omega
  rcases this with rfl | rfl | rfl | rfl | rfl | rfl | rfl | rfl | rfl | rfl | rfl <;> decide

/-- The day after has the next number. -/
theorem follows_number {a b : Day} (h : Follows a b) : b.date.dayNumber = a.date.dayNumber + 1 := by
  rcases h with ⟨h1, h2, h3⟩ | ⟨h0, h1, h2, h3⟩ | ⟨h1, h2, h3, h4, h5⟩
  · simp only [Date.dayNumber_eq, Day.date, h1, h2, h3, Date.marchDay]; split <;> omega
  · rw [← Date.daysIn_eq a.month_pos a.month_le] at h0
    have hm := a.month_pos
    have hm' := b.month_le
    simp only [Date.dayNumber_eq, Day.date, h1, h2, h3]
    rw [h2] at hm'
    unfold Date.daysIn at h0
    generalize a.month = m at *
    generalize a.year = y at *
    rw [h0]
    by_cases e : m = 2
    · subst e
      have hs := Date.leaps_step y
      simp [Date.marchDay]
      split at hs <;> rename_i hl <;> simp [hl] <;> omega
    · rw [if_neg e]
      by_cases e1 : m = 1
      · subst e1; simp [Date.marchDay]; omega
      · have := marchDay_next (m := m - 3) (by omega) (by omega)
        rw [if_neg (by omega), if_neg (by omega), show m + 1 - 3 = m - 3 + 1 by omega, this]
        have : (m - 3 = 1 ∨ m - 3 = 3 ∨ m - 3 = 6 ∨ m - 3 = 8) ↔ (m = 4 ∨ m = 6 ∨ m = 9 ∨ m = 11) := by omega
        simp only [this]
        omega
  · simp [Date.dayNumber_eq, Day.date, h1, h2, h3, h4, h5, Date.marchDay]; omega

/-- Every day has a day after it. -/
theorem next_exists (a : Day) : ∃ b, Follows a b := by
  by_cases h : a.day < monthDays a.year a.month
  · exact ⟨⟨a.year, a.month, a.day + 1, a.month_pos, a.month_le, by have := a.day_pos; omega, by omega⟩, Or.inl ⟨rfl, rfl, rfl⟩⟩
  · have h' : a.day = monthDays a.year a.month := by have := a.day_le; omega
    have pos : ∀ {y m}, 1 ≤ m → m ≤ 12 → 1 ≤ monthDays y m := by
      intro y m h1 h2
      rw [← Date.daysIn_eq h1 h2]; unfold Date.daysIn; split <;> split <;> omega
    by_cases hm : a.month = 12
    · refine ⟨⟨a.year + 1, 1, 1, by decide, by decide, by decide, pos (by decide) (by decide)⟩, Or.inr (Or.inr ⟨hm, ?_, rfl, rfl, rfl⟩)⟩
      rw [h', hm]; rfl
    · have := a.month_pos
      have := a.month_le
      exact ⟨⟨a.year, a.month + 1, 1, by omega, by omega, by decide, pos (by omega) (by omega)⟩, Or.inr (Or.inl ⟨h', rfl, rfl, rfl⟩)⟩

/-- The day of a number. -/
def ofNumber (n : Int) : Day :=
  ⟨(Date.ofDayNumber n).y, (Date.ofDayNumber n).m, (Date.ofDayNumber n).d, (Date.ofDayNumber_spec n).1.1, (Date.ofDayNumber_spec n).1.2.1,
    (Date.ofDayNumber_spec n).1.2.2.1, by
      rw [← Date.daysIn_eq (Date.ofDayNumber_spec n).1.1 (Date.ofDayNumber_spec n).1.2.1]; exact (Date.ofDayNumber_spec n).1.2.2.2⟩

theorem ofNumber_number (n : Int) : (ofNumber n).date.dayNumber = n := (Date.ofDayNumber_spec n).2

theorem number_unique {a b : Day} (h : a.date.dayNumber = b.date.dayNumber) : a = b :=
  Day.ext' (Date.dayNumber_injective a.valid b.valid h)

theorem ofNumber_follows (n : Int) : Follows (ofNumber n) (ofNumber (n + 1)) := by
  obtain ⟨b, hb⟩ := next_exists (ofNumber n)
  have : b = ofNumber (n + 1) := by
    apply number_unique
    rw [follows_number hb, ofNumber_number, ofNumber_number]
  rw [← this]; exact hb

theorem epoch_number : epoch.date.dayNumber = 0 := by decide

/-- The number of a day is the count of days from 1970-01-01. -/
theorem daysAfter_iff (b : Day) (n : Int) : DaysAfter epoch n b ↔ b.date.dayNumber = n := by
  constructor
  · intro h
    induction h with
    | zero => exact epoch_number
    | next _ hf ih => rw [follows_number hf, ih]
    | prev _ hf ih => have := follows_number hf; omega
  · have h0 : ofNumber 0 = epoch := number_unique (by rw [ofNumber_number, epoch_number])
    have up : ∀ k : Nat, DaysAfter epoch k (ofNumber k) := by
      intro k
      induction k with
      | zero => rw [show ((0 : Nat) : Int) = 0 from rfl, h0]; exact .zero
      | succ k ih => exact .next ih (ofNumber_follows k)
    have down : ∀ k : Nat, DaysAfter epoch (-(k : Int)) (ofNumber (-(k : Int))) := by
      intro k
      induction k with
      | zero => rw [show -((0 : Nat) : Int) = 0 from rfl, h0]; exact .zero
      | succ k ih =>
        have hf := ofNumber_follows (-((k + 1 : Nat) : Int))
        rw [show -((k + 1 : Nat) : Int) + 1 = -(k : Int) by omega] at hf
        have := DaysAfter.prev ih hf
        rwa [show -(k : Int) - 1 = -((k + 1 : Nat) : Int) by omega] at this
    intro h
    have hb : b = ofNumber n := number_unique (by rw [h, ofNumber_number])
    rw [hb]
    rcases Int.le_total 0 n with hn | hn
    · have := up n.toNat; rwa [show ((n.toNat : Nat) : Int) = n by omega] at this
    · have := down (-n).toNat; rwa [show -(((-n).toNat : Nat) : Int) = n by omega] at this

end Gregorian
end Mentat
