/-
Double precision arithmetic: rounding error and exactness.
-/
import Verif.Model.Main
import Verif.Lemmas.Numbers
import Mathlib.Data.Rat.Cast.Order
import Mathlib.Algebra.Order.Field.Basic
import Mathlib.Tactic.Linarith
import Mathlib.Tactic.FieldSimp
import Mathlib.Tactic.Positivity
import Mathlib.Tactic.Ring

namespace Gledger

/-- The value of a double. -/
def Dbl.val (x : Dbl) : ℚ := (x.num : ℚ) / (x.den : ℚ)

theorem Dbl.den_pos (x : Dbl) : (0 : ℚ) < x.den := by
  unfold Dbl.den; positivity

theorem rne_val (num den : Nat) (hd : 0 < den) : |(rne num den : ℚ) - num / den| ≤ 1 / 2 := by
  obtain ⟨h1, h2⟩ := rne_close num den hd
  have h1 : (2 * den * rne num den : ℚ) ≤ 2 * num + den := by exact_mod_cast h1
  have h2 : (2 * num : ℚ) ≤ 2 * den * rne num den + den := by exact_mod_cast h2
  have hd : (0 : ℚ) < den := by exact_mod_cast hd
  have e : (num : ℚ) / den * den = num := by field_simp
  rw [abs_le]
  constructor
  · by_contra h
    push Not at h
    nlinarith
  · by_contra h
    push Not at h
    nlinarith

/-- Rounding to a double is exact up to one part in 2^53. -/
theorem toDbl_close (num den : Nat) (hd : 0 < den) (h : num = 0 ∨ den ≤ num * 2 ^ 64) :
    |(toDbl num den).val - num / den| ≤ (num / den : ℚ) / 2 ^ 53 := by
  by_cases h0 : num = 0
  · subst h0
    simp [toDbl, Dbl.val, Dbl.num]
  have h := h.resolve_left h0
  unfold toDbl
  rw [if_neg h0]
  have hq : num * 2 ^ 64 / den ≠ 0 := by
    have := Nat.div_pos h hd
    omega
  have hl : 2 ^ (Nat.log2 (num * 2 ^ 64 / den)) * den ≤ num * 2 ^ 64 :=
    (Nat.mul_le_mul_right _ (Nat.log2_self_le hq)).trans (Nat.div_mul_le_self _ _)
  simp only
  generalize Nat.log2 (num * 2 ^ 64 / den) = l at hl
  have hd' : (0 : ℚ) < den := by exact_mod_cast hd
  have hn' : (0 : ℚ) < num := by exact_mod_cast Nat.pos_of_ne_zero h0
  have hl' : (2 : ℚ) ^ l * den ≤ num * 2 ^ 64 := by exact_mod_cast hl
  have hl2 : (2 : ℚ) ^ l ≤ num / den * 2 ^ 64 := by
    rw [div_mul_eq_mul_div, le_div_iff₀ hd']; exact hl'
  by_cases he : (0 : Int) ≤ (l : Int) - 64 - 52
  · rw [if_pos he]
    obtain ⟨k, hk⟩ : ∃ k : Nat, l = k + 116 := ⟨l - 116, by omega⟩
    have e1 : ((l : Int) - 64 - 52) = (k : Int) := by omega
    rw [e1]
    have r := rne_val num (den * 2 ^ k) (by positivity)
    unfold Dbl.val Dbl.num Dbl.den
    simp only [Int.toNat_natCast, Int.toNat_neg_natCast, pow_zero, Nat.cast_one, div_one, Nat.cast_mul, Nat.cast_pow, Nat.cast_ofNat] at r ⊢
    generalize (rne num (den * 2 ^ k) : ℚ) = m at *
    have hp : (0 : ℚ) < 2 ^ k := by positivity
    have e2 : m * 2 ^ k - num / den = (m - num / (den * 2 ^ k)) * 2 ^ k := by field_simp
    rw [e2, abs_mul, abs_of_pos hp]
    have e3 : |m - num / (den * 2 ^ k)| * 2 ^ k ≤ 1 / 2 * 2 ^ k := mul_le_mul_of_nonneg_right r hp.le
    refine e3.trans ?_
    rw [hk, pow_add] at hl2
    rw [le_div_iff₀ (by positivity)]
    have : (2 : ℚ) ^ 116 = 2 ^ 64 * 2 ^ 52 := by norm_num
    have e4 : (2:ℚ)^k * 2^52 ≤ num / den := by
      have : (2 : ℚ) ^ k * 2 ^ 52 * 2 ^ 64 ≤ num / den * 2 ^ 64 := by
        calc (2 : ℚ) ^ k * 2 ^ 52 * 2 ^ 64 = 2 ^ k * 2 ^ 116 := by ring
          _ ≤ _ := hl2
      exact le_of_mul_le_mul_right this (by positivity)
    calc (1 : ℚ) / 2 * 2 ^ k * 2 ^ 53 = 2 ^ k * 2 ^ 52 := by ring
      _ ≤ _ := e4
  · rw [if_neg he]
    obtain ⟨k, hk⟩ : ∃ k : Nat, k + l = 116 := ⟨116 - l, by omega⟩
    have e1 : ((l : Int) - 64 - 52) = -(k : Int) := by omega
    rw [e1]
    simp only [neg_neg, Int.toNat_natCast]
    have r := rne_val (num * 2 ^ k) den hd
    unfold Dbl.val Dbl.num Dbl.den
    simp only [neg_neg, Int.toNat_natCast, Int.toNat_neg_natCast, pow_zero, mul_one, Nat.cast_mul, Nat.cast_pow, Nat.cast_ofNat] at r ⊢
    generalize (rne (num * 2 ^ k) den : ℚ) = m at *
    have hp : (0 : ℚ) < 2 ^ k := by positivity
    have e2 : m / 2 ^ k - num / den = (m - num * 2 ^ k / den) / 2 ^ k := by field_simp
    rw [e2, abs_div, abs_of_pos hp, div_le_div_iff₀ hp (by positivity)]
    have e3 : (2 : ℚ) ^ 116 = 2 ^ k * 2 ^ l := by rw [← pow_add, hk]
    have e4 : (2 : ℚ) ^ 52 ≤ num / den * 2 ^ k := by
      have : (2 : ℚ) ^ 52 * 2 ^ 64 ≤ num / den * 2 ^ k * 2 ^ 64 := by
        calc (2 : ℚ) ^ 52 * 2 ^ 64 = 2 ^ k * 2 ^ l := by rw [← e3]; norm_num
          _ ≤ 2 ^ k * (num / den * 2 ^ 64) := mul_le_mul_of_nonneg_left hl2 hp.le
          _ = _ := by ring
      exact le_of_mul_le_mul_right this (by positivity)
    calc |m - num * 2 ^ k / den| * 2 ^ 53 ≤ 1 / 2 * 2 ^ 53 := mul_le_mul_of_nonneg_right r (by positivity)
      _ = 2 ^ 52 := by norm_num
      _ ≤ _ := e4

/-- Integers below 2^53 are doubles. -/
theorem toDbl_whole (n den : Nat) (hd : 0 < den) (h : n < 2 ^ 53) : (toDbl (n * den) den).num = n * (toDbl (n * den) den).den := by
  by_cases h0 : n = 0
  · subst h0; simp [toDbl, Dbl.num]
  unfold toDbl
  have hn : n * den ≠ 0 := Nat.mul_ne_zero h0 (by omega)
  rw [if_neg hn]
  have hq : n * den * 2 ^ 64 / den = n * 2 ^ 64 := by
    rw [show n * den * 2 ^ 64 = n * 2 ^ 64 * den by ring, Nat.mul_div_cancel _ hd]
  rw [hq]
  have hl : Nat.log2 (n * 2 ^ 64) < 53 + 64 := by
    rw [Nat.log2_lt (by positivity), Nat.pow_add]
    exact Nat.mul_lt_mul_of_pos_right h (by positivity)
  simp only
  generalize Nat.log2 (n * 2 ^ 64) = l at hl
  have hr : ∀ a, rne (a * den) den = a := fun a => rne_of_close (by omega) (by omega)
  by_cases he : (0 : Int) ≤ (l : Int) - 64 - 52
  · have : (l : Int) - 64 - 52 = 0 := by omega
    rw [if_pos he, this]
    simp [Dbl.num, Dbl.den, hr]
  · rw [if_neg he]
    obtain ⟨k, hk⟩ : ∃ k : Nat, ((l : Int) - 64 - 52) = -(k : Int) := ⟨116 - l, by omega⟩
    rw [hk]
    simp only [neg_neg, Int.toNat_natCast]
    rw [show n * den * 2 ^ k = n * 2 ^ k * den by ring, hr]
    simp [Dbl.num, Dbl.den]

end Gledger
