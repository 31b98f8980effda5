import Verif.Spec.Numbers
import Verif.Model.Display
import Mathlib.Tactic.Ring
import Mathlib.Tactic.Linarith

/-! Reading and writing of decimal numbers. -/

namespace Gledger

theorem isDigit_iff (c : Char) : isDigit c = true ↔ Digit c := by
  simp [isDigit, Digit]

theorem digitVal_eq (c : Char) : digitVal c = c.toNat - '0'.toNat := rfl

theorem digitsValue_some (s : Str) (h : ∀ c ∈ s, Digit c) :
    ∀ v, digitsValue v s = some (s.foldl (fun v c => v * 10 + (c.toNat - '0'.toNat)) v) := by
  induction s with
  | nil => intro v; rfl
  | cons c cs ih =>
    intro v
    rw [digitsValue, if_pos ((isDigit_iff c).2 (h c (by simp))), ih fun d hd => h d (by simp [hd])]
    rfl

theorem digitsValue_digits (s : Str) : ∀ v w, digitsValue v s = some w → ∀ c ∈ s, Digit c := by
  induction s with
  | nil => simp
  | cons c cs ih =>
    intro v w h
    rw [digitsValue] at h
    by_cases hc : isDigit c = true
    · rw [if_pos hc] at h
      intro d hd
      rcases List.mem_cons.1 hd with rfl | hd
      · exact (isDigit_iff _).1 hc
      · exact ih _ _ h d hd
    · rw [if_neg hc] at h; cases h

theorem digitsValue_eq {s : Str} (h : Digits s) : digitsValue 0 s = some (decimalValue s) :=
  digitsValue_some s h.2 0

theorem foldl_value (s : Str) : ∀ v, s.foldl (fun v c => v * 10 + (c.toNat - '0'.toNat)) v =
    v * 10 ^ s.length + decimalValue s := by
  induction s with
  | nil => intro v; simp [decimalValue]
  | cons c cs ih =>
    intro v
    rw [decimalValue, List.foldl_cons, List.foldl_cons, ih, ih, List.length_cons]
    ring

theorem decimalValue_append (s t : Str) : decimalValue (s ++ t) = decimalValue s * 10 ^ t.length + decimalValue t := by
  rw [decimalValue, List.foldl_append, foldl_value]
  rfl

theorem decimalValue_nil : decimalValue [] = 0 := rfl

theorem decimalValue_singleton (c : Char) : decimalValue [c] = c.toNat - '0'.toNat := by simp [decimalValue]

theorem decimalValue_lt {s : Str} (h : ∀ c ∈ s, Digit c) : decimalValue s < 10 ^ s.length := by
  induction s using List.reverseRecOn with
  | nil => simp [decimalValue]
  | append_singleton cs c ih =>
    have h1 := ih fun d hd => h d (by simp [hd])
    have h2 := (h c (by simp)).2
    rw [decimalValue_append, decimalValue_singleton]
    simp only [List.length_append, List.length_singleton, pow_succ, pow_zero, one_mul]
    have : '9'.toNat = 57 := rfl
    have : '0'.toNat = 48 := rfl
    omega

/-- The value of a digit character made from a number below ten. -/
theorem ofNat_digit {n : Nat} (h : n < 10) : (Char.ofNat (48 + n)).toNat = 48 + n := by
  have : n ∈ List.range 10 := by simpa using h
  revert n
  decide

theorem digit_ofNat {n : Nat} (h : n < 10) : Digit (Char.ofNat (48 + n)) := by
  rw [Digit, ofNat_digit h]
  have : '9'.toNat = 57 := rfl
  have : '0'.toNat = 48 := rfl
  omega

theorem natDigitsAux_spec : ∀ f n, n ≤ f → Digits (natDigitsAux f n) ∧ decimalValue (natDigitsAux f n) = n := by
  intro f
  induction f with
  | zero =>
    intro n hn
    have : n = 0 := by omega
    subst this
    decide
  | succ f ih =>
    intro n hn
    rw [natDigitsAux]
    by_cases h : n < 10
    · rw [if_pos h]
      refine ⟨⟨by simp, by simpa using digit_ofNat h⟩, ?_⟩
      rw [decimalValue_singleton, ofNat_digit h]
      have : '0'.toNat = 48 := rfl
      omega
    · rw [if_neg h]
      obtain ⟨h1, h2⟩ := ih (n / 10) (by omega)
      have h3 : n % 10 < 10 := by omega
      refine ⟨⟨by simp, ?_⟩, ?_⟩
      · intro c hc
        rcases List.mem_append.1 hc with hc | hc
        · exact h1.2 c hc
        · rw [List.mem_singleton.1 hc]; exact digit_ofNat h3
      · rw [decimalValue_append, h2, decimalValue_singleton, ofNat_digit h3]
        have : '0'.toNat = 48 := rfl
        simp only [List.length_singleton, pow_one]
        omega

theorem natDigits_digits (n : Nat) : Digits (natDigits n) := (natDigitsAux_spec n n le_rfl).1

theorem natDigits_value (n : Nat) : decimalValue (natDigits n) = n := (natDigitsAux_spec n n le_rfl).2

theorem pad2_digits (n : Nat) : Digits (pad2 n) := by
  refine ⟨by simp [pad2], ?_⟩
  intro c hc
  simp only [pad2, List.mem_cons, List.not_mem_nil, or_false] at hc
  rcases hc with rfl | rfl <;> exact digit_ofNat (by omega)

theorem pad2_value {n : Nat} (h : n < 100) : decimalValue (pad2 n) = n := by
  simp only [decimalValue, pad2, List.foldl_cons, List.foldl_nil]
  rw [ofNat_digit (by omega), ofNat_digit (by omega)]
  have : '0'.toNat = 48 := rfl
  omega

/-! ### `strconv.ParseInt` -/

theorem digit_not_sign {c : Char} (h : Digit c) : c ≠ '+' ∧ c ≠ '-' ∧ c ≠ '.' := by
  refine ⟨?_, ?_, ?_⟩ <;> rintro rfl <;> exact absurd h (by decide)

/-- `ParseInt` on an optionally signed string of digits. -/
theorem parseInt_text (g : Sign) {s : Str} (h : Digits s) :
    parseInt (g.text ++ s) =
      if Int64Range (g.apply (decimalValue s)) then some (BitVec.ofInt 64 (g.apply (decimalValue s))) else none := by
  obtain ⟨c, cs, rfl⟩ := List.exists_cons_of_ne_nil h.1
  obtain ⟨h1, h2, _⟩ := digit_not_sign (h.2 c (by simp))
  have hv := digitsValue_eq h
  have hl : (c :: cs).length ≠ 0 := by simp
  generalize hd : decimalValue (c :: cs) = v at hv
  cases g
  · have : parseInt (Sign.absent.text ++ c :: cs) =
        (if v < 2 ^ 63 then some (BitVec.ofInt 64 (v : Int)) else none) := by
      unfold parseInt
      split
      rename_i neg digits heq
      have : neg = false ∧ digits = c :: cs := by
        revert heq
        simp only [Sign.text, List.nil_append]
        split
        · rename_i h'; simp at h'; exact absurd h'.1 h1
        · rename_i h'; simp at h'; exact absurd h'.1 h2
        · intro heq; simp at heq; exact ⟨heq.1, heq.2.symm⟩
      obtain ⟨rfl, rfl⟩ := this
      rw [if_neg hl, hv]
      simp
    rw [this]
    by_cases hr : v < 2 ^ 63
    · rw [if_pos hr, if_pos (by simp only [Sign.apply, Int64Range]; constructor <;> omega)]
      rfl
    · rw [if_neg hr, if_neg (by simp only [Sign.apply, Int64Range]; omega)]
  · have : parseInt (Sign.plus.text ++ c :: cs) =
        (if v < 2 ^ 63 then some (BitVec.ofInt 64 (v : Int)) else none) := by
      simp only [Sign.text, List.cons_append, List.nil_append, parseInt]
      rw [if_neg hl, hv]
      simp
    rw [this]
    by_cases hr : v < 2 ^ 63
    · rw [if_pos hr, if_pos (by simp only [Sign.apply, Int64Range]; constructor <;> omega)]
      rfl
    · rw [if_neg hr, if_neg (by simp only [Sign.apply, Int64Range]; omega)]
  · have : parseInt (Sign.minus.text ++ c :: cs) =
        (if v ≤ 2 ^ 63 then some (BitVec.ofInt 64 (-(v : Int))) else none) := by
      simp only [Sign.text, List.cons_append, List.nil_append, parseInt]
      rw [if_neg hl, hv]
      simp
    rw [this]
    by_cases hr : v ≤ 2 ^ 63
    · rw [if_pos hr, if_pos (by simp only [Sign.apply, Int64Range]; constructor <;> omega)]
      rfl
    · rw [if_neg hr, if_neg (by simp only [Sign.apply, Int64Range]; omega)]

/-- What `ParseInt` accepts is an optionally signed string of digits. -/
theorem parseInt_shape {s : Str} {q : I64} (h : parseInt s = some q) :
    ∃ (g : Sign) (d : Str), s = g.text ++ d ∧ Digits d := by
  unfold parseInt at h
  split at h
  rename_i neg digits heq
  by_cases hl : digits.length = 0
  · rw [if_pos hl] at h; cases h
  · rw [if_neg hl] at h
    cases hv : digitsValue 0 digits with
    | none => rw [hv] at h; cases h
    | some v =>
      have hd : Digits digits := ⟨by rintro rfl; exact hl rfl, digitsValue_digits _ _ _ hv⟩
      revert heq
      split
      · intro heq; simp at heq; exact ⟨.plus, digits, by simp [Sign.text, heq.2], hd⟩
      · intro heq; simp at heq; exact ⟨.minus, digits, by simp [Sign.text, heq.2], hd⟩
      · intro heq; simp at heq; exact ⟨.absent, digits, by simp [Sign.text, heq.2], hd⟩

/-! ### Rounding -/

/-- `rne` is the nearest integer. -/
theorem rne_close (num den : Nat) (hd : 0 < den) :
    2 * den * rne num den ≤ 2 * num + den ∧ 2 * num ≤ 2 * den * rne num den + den := by
  have h1 := Nat.div_add_mod num den
  have h2 := Nat.mod_lt num hd
  unfold rne
  simp only
  generalize num / den = q at *
  generalize num % den = r at *
  have e : 2 * den * (q + 1) = 2 * (den * q) + 2 * den := by ring
  have e' : 2 * den * q = 2 * (den * q) := by ring
  generalize den * q = x at *
  repeat' split
  all_goals (first | rw [e] | rw [e']); omega

theorem rne_of_close {num den n : Nat} (h1 : 2 * num < 2 * (n * den) + den) (h2 : 2 * (n * den) < 2 * num + den) :
    rne num den = n := by
  have hd : 0 < den := by omega
  obtain ⟨h3, h4⟩ := rne_close num den hd
  have e : 2 * den * rne num den = 2 * (rne num den * den) := by ring
  rw [e] at h3 h4
  rcases Nat.lt_trichotomy (rne num den) n with h | h | h
  · have := Nat.mul_le_mul_right den (show rne num den + 1 ≤ n by omega)
    rw [Nat.add_mul] at this
    omega
  · exact h
  · have := Nat.mul_le_mul_right den (show n + 1 ≤ rne num den by omega)
    rw [Nat.add_mul] at this
    omega

theorem rne_one (n : Nat) : rne n 1 = n := rne_of_close (by omega) (by omega)

end Gledger
