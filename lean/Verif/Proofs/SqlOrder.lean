import Verif.Model.Sql
/- SQLite's order on values. -/
namespace Mentat

theorem lexLt_irrefl : ∀ l, lexLt l l = false
  | [] => rfl
  | a :: l => by simp [lexLt, lexLt_irrefl l]

theorem lexLt_asymm : ∀ {l m}, lexLt l m = true → lexLt m l = false
  | [], [], h => by cases h
  | [], _ :: _, h => rfl
  | _ :: _, [], h => by cases h
  | a :: l, b :: m, h => by
    simp only [lexLt, Bool.or_eq_true, Bool.and_eq_true, decide_eq_true_eq] at h
    simp only [lexLt, Bool.or_eq_false_iff, Bool.and_eq_false_iff, decide_eq_false_iff_not]
    rcases h with h | ⟨rfl, h⟩
    · exact ⟨by omega, .inl (by omega)⟩
    · exact ⟨by omega, .inr (lexLt_asymm h)⟩

theorem lexLt_neg : ∀ {l m n}, lexLt l m = false → lexLt m n = false → lexLt l n = false
  | [], [], n, _, h => h
  | [], _ :: _, n, h, _ => by cases h
  | _ :: _, [], [], _, _ => rfl
  | _ :: _, [], _ :: _, _, h => by cases h
  | _ :: _, _ :: _, [], _, _ => rfl
  | a :: l, b :: m, c :: n, h, h' => by
    simp only [lexLt, Bool.or_eq_false_iff, Bool.and_eq_false_iff, decide_eq_false_iff_not] at h h' ⊢
    obtain ⟨h1, h2⟩ := h
    obtain ⟨h3, h4⟩ := h'
    refine ⟨by omega, ?_⟩
    by_cases e : a = c
    · have e1 : a = b := by omega
      have e2 : b = c := by omega
      exact .inr (lexLt_neg (h2.resolve_left (by omega)) (h4.resolve_left (by omega)))
    · exact .inl e

namespace SqlValue

def num : SqlValue → Int
  | .integer a => a * 2 ^ 1074
  | .real a => a
  | _ => 0

def codes : SqlValue → List Nat
  | .text a => a.map Char.toNat
  | .blob a => a
  | _ => []

theorem lt_iff (v w : SqlValue) : v.lt w = true ↔
    v.rank < w.rank ∨ v.rank = w.rank ∧ (v.num < w.num ∨ v.num = w.num ∧ lexLt v.codes w.codes = true) := by
  have hc : (0 : Int) < 2 ^ 1074 := Int.pow_pos (by decide)
  cases v <;> cases w <;> simp [SqlValue.lt, rank, num, codes, lexLt]
  exact (Int.mul_lt_mul_right hc).symm

theorem lt_asymm {v w : SqlValue} (h : v.lt w = true) : w.lt v = false := by
  rw [lt_iff] at h
  rw [Bool.eq_false_iff, Ne, lt_iff]
  rcases h with h | ⟨h1, h | ⟨h2, h⟩⟩
  · omega
  · omega
  · have := lexLt_asymm h
    rintro (h | ⟨-, h | ⟨-, h⟩⟩)
    · omega
    · omega
    · rw [this] at h; cases h

theorem lt_neg {v w u : SqlValue} (h : v.lt w = false) (h' : w.lt u = false) : v.lt u = false := by
  rw [Bool.eq_false_iff, Ne, lt_iff] at h h' ⊢
  rintro (g | ⟨g1, g | ⟨g2, g⟩⟩)
  · omega
  · omega
  · have e1 : v.rank = w.rank := by omega
    have e2 : v.num = w.num := by omega
    cases h3 : lexLt v.codes w.codes with
    | true => exact h (.inr ⟨e1, .inr ⟨e2, h3⟩⟩)
    | false =>
      cases h4 : lexLt w.codes u.codes with
      | true => exact h' (.inr ⟨by omega, .inr ⟨by omega, h4⟩⟩)
      | false => rw [lexLt_neg h3 h4] at g; cases g

theorem lt_same {v w : SqlValue} (h : v.same w = true) : v.lt w = false ∧ w.lt v = false := by
  cases v <;> cases w <;> simp [same, SqlValue.eq] at h <;> simp [SqlValue.lt, rank] <;>
    (subst h; simp [lexLt_irrefl])

end SqlValue

end Mentat
