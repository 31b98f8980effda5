import Verif.Lemmas.Decode
import Verif.Spec.File

namespace Gledger

theorem toNat_ofNat8 {n : Nat} (h : n < 256) : (UInt8.ofNat n).toNat = n := by
  simp [UInt8.toNat_ofNat', Nat.mod_eq_of_lt h]

theorem pair_ofNat {n m w w' : Nat} {c : Char} (hc : Char.ofNat n = c) (h : m = n) (hw : w = w') :
    (Char.ofNat m, w) = (c, w') := by rw [h, hc, hw]

/-- Decoding the encoding of a character. -/
theorem decodeRune_encode (c : Char) (rest : List UInt8) :
    decodeRune (String.utf8EncodeChar c ++ rest) = (c, (String.utf8EncodeChar c).length) := by
  have hv : c.toNat.isValidChar := c.valid
  have hc : Char.ofNat c.toNat = c := Char.ofNat_toNat c
  have hval : c.val.toNat = c.toNat := rfl
  unfold String.utf8EncodeChar
  simp only [hval]
  generalize hn : c.toNat = n at hv hc
  simp only [Nat.isValidChar] at hv
  by_cases h1 : n ≤ 0x7f
  · simp only [h1, if_true, List.cons_append, List.nil_append, decodeRune]
    rw [toNat_ofNat8 (by omega), if_pos (by omega), hc]
    rfl
  · by_cases h2 : n ≤ 0x7ff
    · simp only [h1, h2, if_true, if_false, List.cons_append, List.nil_append, decodeRune, isCont_iff]
      rw [toNat_ofNat8 (by omega), toNat_ofNat8 (by omega), if_neg (by omega), if_pos (by omega), if_pos (by omega)]
      exact pair_ofNat hc (by omega) rfl
    · by_cases h3 : n ≤ 0xffff
      · simp only [h1, h2, h3, if_true, if_false, List.cons_append, List.nil_append, decodeRune, isCont_iff]
        rw [toNat_ofNat8 (by omega), toNat_ofNat8 (by omega), toNat_ofNat8 (by omega), if_neg (by omega),
          if_neg (by omega), if_pos (by omega)]
        rw [if_pos]
        · exact pair_ofNat hc (by omega) rfl
        · refine ⟨?_, ?_, by omega⟩
          · split <;> omega
          · split <;> omega
      · simp only [h1, h2, h3, if_false, List.cons_append, List.nil_append, decodeRune, isCont_iff]
        rw [toNat_ofNat8 (by omega), toNat_ofNat8 (by omega), toNat_ofNat8 (by omega), toNat_ofNat8 (by omega),
          if_neg (by omega), if_neg (by omega), if_neg (by omega), if_pos (by omega)]
        rw [if_pos]
        · exact pair_ofNat hc (by omega) rfl
        · refine ⟨?_, ?_, by omega, by omega⟩
          · split <;> omega
          · split <;> omega

theorem encodeChar_ne_nil (c : Char) : String.utf8EncodeChar c ≠ [] := by
  unfold String.utf8EncodeChar
  simp only
  repeat' split
  all_goals simp

theorem runes_encode_append (cs : Str) (rest : List UInt8) : runes (encode cs ++ rest) = cs ++ runes rest := by
  induction cs with
  | nil => rfl
  | cons c cs ih =>
    have h : encode (c :: cs) ++ rest = String.utf8EncodeChar c ++ (encode cs ++ rest) := by simp [encode]
    rw [h]
    have hd := decodeRune_encode c (encode cs ++ rest)
    cases hx : String.utf8EncodeChar c ++ (encode cs ++ rest) with
    | nil =>
      have := encodeChar_ne_nil c
      simp at hx; try exact absurd hx.1 this
    | cons b bs =>
      rw [runes_cons, ← hx, hd]
      simp [ih]

/-- Reading back the encoding of a text. -/
@[simp] theorem runes_encode (cs : Str) : runes (encode cs) = cs := by
  have := runes_encode_append cs []
  simpa using this

theorem u8_ext {a : UInt8} {n : Nat} (h : a.toNat = n) : a = UInt8.ofNat n := by
  subst h; simp

/-- One decoded character either is the character encoded there, or nothing is encoded there and U+FFFD stands
for one byte. -/
theorem decodeRune_sound (b : UInt8) (bs : List UInt8) :
    (∃ rest, b :: bs = String.utf8EncodeChar (decodeRune (b :: bs)).1 ++ rest ∧
        rest = (b :: bs).drop (decodeRune (b :: bs)).2) ∨
      (decodeRune (b :: bs) = (runeError, 1) ∧ ∀ c rest, b :: bs ≠ String.utf8EncodeChar c ++ rest) := by
  by_cases he : ∃ c rest, b :: bs = String.utf8EncodeChar c ++ rest
  · obtain ⟨c, rest, h⟩ := he
    left
    have := decodeRune_encode c rest
    rw [h, this]
    exact ⟨rest, by simp⟩
  · right
    refine ⟨?_, fun c rest h => he ⟨c, rest, h⟩⟩
    -- otherwise the decoder's ranges would exhibit an encoding
    by_contra hne
    apply he
    have hb := b.toNat_lt
    simp only [decodeRune] at hne
    split at hne
    · refine ⟨Char.ofNat b.toNat, bs, ?_⟩
      have hv : (Char.ofNat b.toNat).val.toNat = b.toNat := ofNat_toNat_of_lt (by assumption)
      unfold String.utf8EncodeChar
      simp only [hv]
      rw [if_pos (by omega)]
      simp
    · split at hne
      · split at hne
        · rename_i b1 bs'
          split at hne
          · rename_i h0 h1 h2
            rw [isCont_iff] at h2
            generalize hn : (b.toNat - 0xC0) * 64 + (b1.toNat - 0x80) = n at hne
            have hv : (Char.ofNat n).val.toNat = n := ofNat_toNat_valid (by simp only [Nat.isValidChar]; omega)
            refine ⟨Char.ofNat n, bs', ?_⟩
            unfold String.utf8EncodeChar
            simp only [hv]
            rw [if_neg (by omega), if_pos (by omega)]
            simp only [List.cons_append, List.nil_append, List.cons.injEq, and_true]
            exact ⟨u8_ext (by omega), u8_ext (by omega)⟩
          · exact absurd rfl hne
        · exact absurd rfl hne
      · split at hne
        · split at hne
          · rename_i b1 b2 bs'
            · rename_i h0 h1 h2
              rw [ite_eq_right_iff, Classical.not_imp] at hne
              obtain ⟨h3, hne⟩ := hne
              rw [isCont_iff] at h3
              generalize hn : (b.toNat - 0xE0) * 4096 + (b1.toNat - 0x80) * 64 + (b2.toNat - 0x80) = n at hne
              have h4 : 0x800 ≤ n ∧ (n < 0xd800 ∨ 0xdfff < n) ∧ n ≤ 0xffff := by
                obtain ⟨h3a, h3b, h3c⟩ := h3
                split at h3a <;> split at h3b <;> omega
              have h5 : 0x80 ≤ b1.toNat ∧ b1.toNat ≤ 0xBF := by
                obtain ⟨h3a, h3b, h3c⟩ := h3
                split at h3a <;> split at h3b <;> omega
              have hv : (Char.ofNat n).val.toNat = n := ofNat_toNat_valid (by simp only [Nat.isValidChar]; omega)
              refine ⟨Char.ofNat n, bs', ?_⟩
              unfold String.utf8EncodeChar
              simp only [hv]
              rw [if_neg (by omega), if_neg (by omega), if_pos (by omega)]
              simp only [List.cons_append, List.nil_append, List.cons.injEq, and_true]
              exact ⟨u8_ext (by omega), u8_ext (by omega), u8_ext (by omega)⟩
          · exact absurd rfl hne
        · split at hne
          · split at hne
            · rename_i b1 b2 b3 bs'
              · rename_i h0 h1 h2 h2'
                rw [ite_eq_right_iff, Classical.not_imp] at hne
                obtain ⟨h3, hne⟩ := hne
                simp only [isCont_iff] at h3
                generalize hn : (b.toNat - 0xF0) * 262144 + (b1.toNat - 0x80) * 4096 + (b2.toNat - 0x80) * 64
                  + (b3.toNat - 0x80) = n at hne
                have h4 : 0x10000 ≤ n ∧ n < 0x110000 := by
                  obtain ⟨h3a, h3b, h3c, h3d⟩ := h3
                  split at h3a <;> split at h3b <;> omega
                have h5 : 0x80 ≤ b1.toNat ∧ b1.toNat ≤ 0xBF := by
                  obtain ⟨h3a, h3b, h3c⟩ := h3
                  split at h3a <;> split at h3b <;> omega
                have hv : (Char.ofNat n).val.toNat = n := ofNat_toNat_valid (by simp only [Nat.isValidChar]; omega)
                refine ⟨Char.ofNat n, bs', ?_⟩
                unfold String.utf8EncodeChar
                simp only [hv]
                rw [if_neg (by omega), if_neg (by omega), if_neg (by omega)]
                simp only [List.cons_append, List.nil_append, List.cons.injEq, and_true]
                exact ⟨u8_ext (by omega), u8_ext (by omega), u8_ext (by omega), u8_ext (by omega)⟩
            · exact absurd rfl hne
          · exact absurd rfl hne

end Gledger
