import Verif.Spec.Runes

namespace Gledger

theorem decodeRune_width_pos (b : UInt8) (bs : List UInt8) :
    1 ≤ (decodeRune (b :: bs)).2 ∧ (decodeRune (b :: bs)).2 ≤ (b :: bs).length := by
  simp only [decodeRune]
  repeat' split
  all_goals simp

theorem ofNat_toNat_valid {n : Nat} (h : n.isValidChar) : (Char.ofNat n).toNat = n := by
  unfold Char.ofNat
  rw [dif_pos h]
  rfl

theorem ofNat_toNat_of_lt {n : Nat} (h : n < 0x80) : (Char.ofNat n).toNat = n :=
  ofNat_toNat_valid (Or.inl (by omega))

theorem isCont_iff (b : Nat) : isCont b = true ↔ 0x80 ≤ b ∧ b ≤ 0xBF := by
  simp [isCont]

theorem decodeRune_shape (b : UInt8) (bs : List UInt8) (hb : ¬ b.toNat < 0x80) :
    (decodeRune (b :: bs)).1 = runeError ∨
      ∃ n, 0x80 ≤ n ∧ n.isValidChar ∧ (decodeRune (b :: bs)).1 = Char.ofNat n := by
  simp only [decodeRune, if_neg hb]
  repeat' split
  all_goals first
    | (left; with_reducible rfl)
    | (right
       refine ⟨_, ?_, ?_, by with_reducible rfl⟩ <;> simp only [isCont_iff, Nat.isValidChar] at * <;> omega)

/-- A decoded ASCII character is its own byte. -/
theorem decodeRune_ascii (b : UInt8) (bs : List UInt8) (h : (decodeRune (b :: bs)).1.toNat < 0x80) :
    b.toNat < 0x80 := by
  by_contra hb
  rcases decodeRune_shape b bs hb with h1 | ⟨n, hn, hv, h1⟩
  · rw [h1] at h
    revert h; decide
  · rw [h1, ofNat_toNat_valid hv] at h
    omega

theorem decodeRune_of_ascii (b : UInt8) (bs : List UInt8) (h : b.toNat < 0x80) :
    decodeRune (b :: bs) = (Char.ofNat b.toNat, 1) := by
  simp [decodeRune, h]

/-- An ASCII character is decoded from exactly one byte, its code. -/
theorem decodeRune_eq_ascii {b : UInt8} {bs : List UInt8} {c : Char} (hc : c.toNat < 0x80)
    (h : (decodeRune (b :: bs)).1 = c) : b.toNat = c.toNat ∧ decodeRune (b :: bs) = (c, 1) := by
  have hb : b.toNat < 0x80 := decodeRune_ascii b bs (by rw [h]; exact hc)
  have h2 := decodeRune_of_ascii b bs hb
  refine ⟨?_, ?_⟩
  · rw [h2] at h
    simp only at h
    rw [← h, ofNat_toNat_of_lt hb]
  · rw [← h]
    rw [h2]

theorem decodeUpTo_enough : ∀ (n : Nat) (bs : List UInt8), bs.length ≤ n →
    decodeUpTo n bs = decodeUpTo bs.length bs := by
  intro n
  induction n using Nat.strong_induction_on with
  | _ n ih =>
    intro bs hn
    match n, bs with
    | 0, [] => rfl
    | 0, b :: bs => simp at hn
    | n + 1, [] => simp [decodeUpTo]
    | n + 1, b :: bs =>
      have hw := decodeRune_width_pos b bs
      simp only [List.length_cons, decodeUpTo]
      congr 1
      have hl : ((b :: bs).drop (decodeRune (b :: bs)).2).length ≤ bs.length := by
        simp only [List.length_drop, List.length_cons]; omega
      simp only [List.length_cons] at hn
      rw [ih n (by omega) _ (by omega)]
      by_cases hbn : bs.length < n + 1
      · rw [ih bs.length (by omega) _ hl]
      · omega

@[simp] theorem runes_nil : runes [] = [] := rfl

theorem runes_cons (b : UInt8) (bs : List UInt8) :
    runes (b :: bs) = (decodeRune (b :: bs)).1 :: runes ((b :: bs).drop (decodeRune (b :: bs)).2) := by
  have hw := decodeRune_width_pos b bs
  unfold runes
  simp only [List.length_cons, decodeUpTo]
  congr 1
  apply decodeUpTo_enough
  simp only [List.length_drop, List.length_cons]; omega

theorem runes_length_le (bs : List UInt8) : (runes bs).length ≤ bs.length := by
  unfold runes
  generalize bs.length = n
  induction n generalizing bs with
  | zero => simp [decodeUpTo]
  | succ n ih =>
    cases bs with
    | nil => simp [decodeUpTo]
    | cons b bs => simp only [decodeUpTo, List.length_cons]; have := ih ((b :: bs).drop (decodeRune (b :: bs)).2); omega

theorem runes_eq_nil {bs : List UInt8} (h : runes bs = []) : bs = [] := by
  cases bs with
  | nil => rfl
  | cons b bs => rw [runes_cons] at h; cases h

end Gledger
