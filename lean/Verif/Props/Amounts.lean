import Verif.Lemmas.Numbers

set_option maxRecDepth 100000

namespace Gledger

/-! ### C06 An amount text denotes its decimal value (false) -/

/-- The sign in front of an amount. -/
def Sign.factor : Sign → I64
  | .minus => -1
  | _ => 1

theorem Sign.factor_mul (g : Sign) (v : Int) : g.factor * BitVec.ofInt 64 v = BitVec.ofInt 64 (g.apply v) := by
  cases g
  · simp [Sign.factor, Sign.apply]
  · simp [Sign.factor, Sign.apply]
  · simp only [Sign.factor, Sign.apply, BitVec.ofInt_neg]
    exact neg_one_mul _

/-- The second half of `parseAmount`, after the sign. -/
def unsignedAmount (m : I64) (content : Str) : Except Failure I64 :=
  match content.findIdx? (· = '.') with
  | none =>
    match parseInt content with
    | none => .error (.err (.number content))
    | some whole => .ok (m * (whole * 100 + 0))
  | some i =>
    match parseInt (content.take i) with
    | none => .error (.err (.number (content.take i)))
    | some whole =>
      match parseInt (content.drop (i + 1)) with
      | none => .error (.err (.number (content.drop (i + 1))))
      | some decimal => .ok (m * (whole * 100 + decimal))

theorem parseAmount_sign (g : Sign) (c : Char) (cs : Str) (h : g = .absent → c ≠ '+' ∧ c ≠ '-') :
    parseAmount (g.text ++ c :: cs) = unsignedAmount g.factor (c :: cs) := by
  cases g
  · obtain ⟨h1, h2⟩ := h rfl
    simp only [Sign.text, List.nil_append, parseAmount, h1, h2, if_false]
    rfl
  · simp only [Sign.text, List.cons_append, List.nil_append, parseAmount, if_true]
    rfl
  · simp only [Sign.text, List.cons_append, List.nil_append, parseAmount, if_true,
      show ¬ ('-' : Char) = '+' by decide, if_false]
    rfl

theorem findIdx_no_point {s : Str} (h : '.' ∉ s) : s.findIdx? (· = '.') = none := by
  rw [List.findIdx?_eq_none_iff]
  intro x hx
  simp only [decide_eq_false_iff_not]
  rintro rfl
  exact h hx

theorem findIdx_at_point {s t : Str} (h : '.' ∉ s) : (s ++ '.' :: t).findIdx? (· = '.') = some s.length := by
  rw [List.findIdx?_append, findIdx_no_point h]
  simp [List.findIdx?_cons]

theorem digits_no_point {s : Str} (h : Digits s) : '.' ∉ s := fun hm => (digit_not_sign (h.2 _ hm)).2.2 rfl

theorem sign_no_point (g : Sign) {s : Str} (h : Digits s) : '.' ∉ g.text ++ s := by
  intro hm
  rcases List.mem_append.1 hm with hm | hm
  · cases g <;> simp [Sign.text] at hm
  · exact digits_no_point h hm

theorem unsigned_no_point (m : I64) {a : Str} (h : '.' ∉ a) :
    unsignedAmount m a = match parseInt a with
      | none => .error (.err (.number a))
      | some whole => .ok (m * (whole * 100 + 0)) := by
  unfold unsignedAmount
  rw [findIdx_no_point h]

theorem unsigned_point (m : I64) {a : Str} (b : Str) (h : '.' ∉ a) :
    unsignedAmount m (a ++ '.' :: b) = match parseInt a with
      | none => .error (.err (.number a))
      | some whole =>
        match parseInt b with
        | none => .error (.err (.number b))
        | some decimal => .ok (m * (whole * 100 + decimal)) := by
  have h1 : (a ++ '.' :: b).take a.length = a := List.take_left
  have h2 : (a ++ '.' :: b).drop (a.length + 1) = b := by
    rw [← List.drop_drop, List.drop_left]
    rfl
  unfold unsignedAmount
  rw [findIdx_at_point h]
  simp only [h1, h2]

/-- The texts accepted without a leading sign and what they are read as. -/
theorem unsigned_iff (m : I64) (s : Str) (q : I64) :
    unsignedAmount m s = .ok q ↔ ∃ (g : Sign) (w : Str), Digits w ∧ Int64Range (g.apply (decimalValue w)) ∧
      ((s = g.text ++ w ∧ q = m * BitVec.ofInt 64 (g.apply (decimalValue w) * 100)) ∨
        ∃ (g' : Sign) (f : Str), Digits f ∧ Int64Range (g'.apply (decimalValue f)) ∧
          s = g.text ++ w ++ '.' :: (g'.text ++ f) ∧
          q = m * BitVec.ofInt 64 (g.apply (decimalValue w) * 100 + g'.apply (decimalValue f))) := by
  have e100 : BitVec.ofInt 64 100 = (100 : I64) := rfl
  constructor
  · intro h
    by_cases hp : '.' ∈ s
    · obtain ⟨a, b, rfl, ha⟩ := List.append_of_mem hp |>.elim fun a h => h.elim fun b h => by
        obtain ⟨a', b', e, h'⟩ := List.eq_append_cons_of_mem hp
        exact (⟨a', b', e, h'⟩ : ∃ a b, s = a ++ '.' :: b ∧ '.' ∉ a)
      rw [unsigned_point m b ha] at h
      cases hw : parseInt a with
      | none => rw [hw] at h; cases h
      | some x =>
        cases hf : parseInt b with
        | none => rw [hw, hf] at h; cases h
        | some y =>
          rw [hw, hf] at h
          obtain ⟨g, w, rfl, hd⟩ := parseInt_shape hw
          obtain ⟨g', f, rfl, hd'⟩ := parseInt_shape hf
          rw [parseInt_text g hd] at hw
          rw [parseInt_text g' hd'] at hf
          split at hw
          · split at hf
            · rename_i h1 h2
              simp only [Option.some.injEq] at hw hf
              simp only [Except.ok.injEq] at h
              refine ⟨g, w, hd, h1, Or.inr ⟨g', f, hd', h2, rfl, ?_⟩⟩
              rw [BitVec.ofInt_add, BitVec.ofInt_mul, e100, hw, hf, h]
            · cases hf
          · cases hw
    · rw [unsigned_no_point m hp] at h
      cases hw : parseInt s with
      | none => rw [hw] at h; cases h
      | some x =>
        rw [hw] at h
        obtain ⟨g, w, rfl, hd⟩ := parseInt_shape hw
        rw [parseInt_text g hd] at hw
        split at hw
        · rename_i h1
          simp only [Option.some.injEq] at hw
          simp only [Except.ok.injEq] at h
          refine ⟨g, w, hd, h1, Or.inl ⟨rfl, ?_⟩⟩
          rw [BitVec.ofInt_mul, e100, hw, ← h, add_zero]
        · cases hw
  · rintro ⟨g, w, hd, h1, ⟨rfl, rfl⟩ | ⟨g', f, hd', h2, rfl, rfl⟩⟩
    · rw [unsigned_no_point m (sign_no_point g hd), parseInt_text g hd, if_pos h1, BitVec.ofInt_mul, e100]
      simp
    · rw [unsigned_point m _ (sign_no_point g hd), parseInt_text g hd, if_pos h1, parseInt_text g' hd', if_pos h2,
        BitVec.ofInt_add, BitVec.ofInt_mul, e100]

/-- Exactly the accepted texts and what they are read as: a sign (`g`), then, if there was one, possibly a second sign
(`g'`), digits, and possibly a point, a third sign (`g''`) and digits; the number after the point is added as hundredths
however many digits it has; each of the two numbers must fit in an int64, and the result is taken modulo 2^64. Missing for
the full claim: this is not the set of signed decimal numbers, nor their values. -/
theorem C06_accepted_texts_partial (s : Str) (q : I64) :
    parseAmount s = .ok q ↔ ∃ (g g' : Sign) (w : Str), (g = .absent → g' = .absent) ∧ Digits w ∧
      Int64Range (g'.apply (decimalValue w)) ∧
      ((s = g.text ++ (g'.text ++ w) ∧ q = BitVec.ofInt 64 (g.apply (g'.apply (decimalValue w) * 100))) ∨
        ∃ (g'' : Sign) (f : Str), Digits f ∧ Int64Range (g''.apply (decimalValue f)) ∧
          s = g.text ++ (g'.text ++ w ++ '.' :: (g''.text ++ f)) ∧
          q = BitVec.ofInt 64 (g.apply (g'.apply (decimalValue w) * 100 + g''.apply (decimalValue f)))) := by
  constructor
  · intro h
    -- the leading sign
    obtain ⟨g, t, rfl, ht, h⟩ : ∃ (g : Sign) (t : Str), s = g.text ++ t ∧
        (g = .absent → ∀ c, t.head? = some c → c ≠ '+' ∧ c ≠ '-') ∧ unsignedAmount g.factor t = .ok q := by
      cases s with
      | nil => cases h
      | cons c cs =>
        by_cases h1 : c = '+'
        · subst h1
          refine ⟨.plus, cs, rfl, by simp, ?_⟩
          simp only [parseAmount, if_true] at h
          exact h
        · by_cases h2 : c = '-'
          · subst h2
            refine ⟨.minus, cs, rfl, by simp, ?_⟩
            simp only [parseAmount, if_true, show ¬ ('-' : Char) = '+' by decide, if_false] at h
            exact h
          · refine ⟨.absent, c :: cs, rfl, by simp [h1, h2], ?_⟩
            rw [← h, ← parseAmount_sign .absent c cs fun _ => ⟨h1, h2⟩]
            rfl
    obtain ⟨g', w, hd, h1, h2⟩ := (unsigned_iff _ _ _).1 h
    refine ⟨g, g', w, ?_, hd, h1, ?_⟩
    · rintro rfl
      rcases h2 with ⟨rfl, _⟩ | ⟨g'', f, _, _, rfl, _⟩
      · cases g'
        · rfl
        · exact absurd rfl (ht rfl '+' rfl).1
        · exact absurd rfl (ht rfl '-' rfl).2
      · cases g'
        · rfl
        · exact absurd rfl (ht rfl '+' rfl).1
        · exact absurd rfl (ht rfl '-' rfl).2
    · rcases h2 with ⟨rfl, rfl⟩ | ⟨g'', f, hf, h3, rfl, rfl⟩
      · exact Or.inl ⟨rfl, g.factor_mul _⟩
      · exact Or.inr ⟨g'', f, hf, h3, rfl, g.factor_mul _⟩
  · rintro ⟨g, g', w, hg, hd, h1, h2⟩
    have hu : ∀ t, unsignedAmount g.factor (g'.text ++ w ++ t) = .ok q → parseAmount (g.text ++ (g'.text ++ w ++ t)) = .ok q := by
      intro t h
      obtain ⟨c, cs, rfl⟩ := List.exists_cons_of_ne_nil hd.1
      obtain ⟨h3, h4, _⟩ := digit_not_sign (hd.2 c (by simp))
      have hs : g = .absent → g'.text = [] := fun e => by rw [hg e]; rfl
      cases he : g'.text with
      | nil =>
        rw [he] at h
        rw [← h]
        exact parseAmount_sign g c (cs ++ t) fun _ => ⟨h3, h4⟩
      | cons d ds =>
        rw [he] at h
        rw [← h]
        refine parseAmount_sign g d (ds ++ (c :: cs) ++ t) fun e => ?_
        rw [hs e] at he
        cases he
    rcases h2 with ⟨rfl, rfl⟩ | ⟨g'', f, hf, h3, rfl, rfl⟩
    · have := hu [] ((unsigned_iff _ _ _).2 ⟨g', w, hd, h1, Or.inl ⟨by simp, (g.factor_mul _).symm⟩⟩)
      simpa using this
    · exact hu _ ((unsigned_iff _ _ _).2 ⟨g', w, hd, h1, Or.inr ⟨g'', f, hf, h3, rfl, (g.factor_mul _).symm⟩⟩)

theorem toInt_ofInt {v : Int} (h : Int64Range v) : (BitVec.ofInt 64 v).toInt = v := by
  rw [BitVec.toInt_ofInt]
  obtain ⟨h1, h2⟩ := h
  have : (2 ^ 63 : Int) = 9223372036854775808 := by norm_num
  rw [this] at *
  rw [Int.bmod_def]
  norm_num
  omega

theorem Sign.range {g : Sign} {v : Nat} (h : Int64Range (g.apply ((v : Int) * 100 + w))) (hw : 0 ≤ w) : (v : Int) < 2 ^ 63 ∧ w < 2 ^ 63 + 1 := by
  obtain ⟨h1, h2⟩ := h
  have e : (2 ^ 63 : Int) = 9223372036854775808 := by norm_num
  rw [e] at *
  cases g <;> simp only [Sign.apply] at h1 h2 <;> constructor <;> omega

/-- A numeral that is not signed inside, as read by the program, when its parts fit. -/
theorem numeral_read (n : Numeral) (hn : n.Ok) (h1 : (decimalValue n.whole : Int) < 2 ^ 63) (h2 : (decimalValue n.places : Int) < 2 ^ 63) :
    parseAmount n.text = .ok (BitVec.ofInt 64 n.hundredths) := by
  refine (C06_accepted_texts_partial _ _).2 ⟨n.sign, .absent, n.whole, fun _ => rfl, hn.1, ?_, ?_⟩
  · exact ⟨by simp only [Sign.apply]; omega, h1⟩
  · cases hf : n.fraction with
    | none =>
      left
      refine ⟨by simp [Numeral.text, hf, Sign.text], ?_⟩
      simp [Numeral.hundredths, Numeral.places, hf, decimalValue_nil, Sign.apply]
    | some f =>
      right
      simp only [Numeral.places, hf, Option.getD_some] at h2
      refine ⟨.absent, f, hn.2 f (by simp [hf]), ⟨by simp only [Sign.apply]; omega, h2⟩, ?_, ?_⟩
      · simp [Numeral.text, hf, Sign.text]
      · simp [Numeral.hundredths, Numeral.places, hf, Sign.apply]

/-- A number written without a point, or with a point and two digits, whose value in hundredths fits in an int64, is stored
exactly. Missing: other numbers of places, for which it is false; and that other texts are rejected. -/
theorem C06_decimal_value_partial (n : Numeral) (hn : n.Ok) (hm : n.Money) (hr : Int64Range n.hundredths) :
    ∃ q, parseAmount n.text = .ok q ∧ q.toInt = n.hundredths ∧ n.IsHundredths q.toInt := by
  obtain ⟨h1, _⟩ := Sign.range hr (by omega)
  have h2 : (decimalValue n.places : Int) < 2 ^ 63 := by
    cases hf : n.fraction with
    | none => simp [Numeral.places, hf, decimalValue_nil]
    | some f =>
      have := decimalValue_lt (hn.2 f (by simp [hf])).2
      rw [hm f (by simp [hf])] at this
      simp only [Numeral.places, hf, Option.getD_some]
      omega
  refine ⟨_, numeral_read n hn h1 h2, toInt_ofInt hr, ?_⟩
  rw [toInt_ofInt hr, Numeral.IsHundredths, Numeral.unscaled, Numeral.hundredths, decimalValue_append]
  have hl : n.places.length = 0 ∧ n.places = [] ∨ n.places.length = 2 := by
    cases hf : n.fraction with
    | none => simp [Numeral.places, hf]
    | some f => simp [Numeral.places, hf, hm f (by simp [hf])]
  rcases hl with ⟨hl, hl'⟩ | hl
  · rw [hl, hl', decimalValue_nil]
    cases n.sign <;> simp only [Sign.apply] <;> push_cast <;> ring
  · rw [hl]
    cases n.sign <;> simp only [Sign.apply] <;> push_cast <;> ring

/-- Hypotheses met: -12.34. -/
example : let n : Numeral := { sign := .minus, whole := str "12", fraction := some (str "34") }
    n.Ok ∧ n.Money ∧ Int64Range n.hundredths ∧ n.text = str "-12.34" ∧ n.hundredths = -1234 := by decide

/-- The number 1.5 is stored as 1.05. -/
theorem C06_decimal_value_false :
    ¬ ∀ (n : Numeral) (q : I64), n.Ok → parseAmount n.text = .ok q → n.IsHundredths q.toInt := by
  intro h
  have := h { whole := str "1", fraction := some (str "5") } 105 (by decide) (by decide)
  revert this
  decide

/-- The text --5 is accepted. -/
theorem C06_rejected_false :
    ¬ ∀ s : Str, (¬ ∃ n : Numeral, n.Ok ∧ s = n.text) → ∀ q, parseAmount s ≠ .ok q := by
  intro h
  refine h (str "--5") ?_ 500 (by decide)
  rintro ⟨⟨g, w, f⟩, hn, e⟩
  rw [show str "--5" = ['-', '-', '5'] by decide] at e
  obtain ⟨c, cs, rfl⟩ := List.exists_cons_of_ne_nil hn.1.1
  have hd := hn.1.2 c (by simp)
  cases g
  · simp [Numeral.text, Sign.text] at e
    rw [← e.1] at hd
    exact absurd hd (by decide)
  · simp [Numeral.text, Sign.text] at e
  · simp [Numeral.text, Sign.text] at e
    rw [← e.1] at hd
    exact absurd hd (by decide)

/-! ### C09 Amounts too large for the ledger are rejected (false) -/

/-- 92233720368547759 is accepted, and stored as a negative number. -/
theorem C09_too_large_false :
    ¬ ∀ n : Numeral, n.Ok → n.Money → ¬ Int64Range n.hundredths → ∀ q, parseAmount n.text ≠ .ok q := by
  intro h
  exact h { whole := str "92233720368547759" } (by decide) (by decide) (by decide) (BitVec.ofInt 64 (-9223372036854775716)) (by decide)

/-- What holds: a number of hundredths is rejected iff its whole part does not fit in an int64; otherwise what is stored is
its value modulo 2^64, hence the right number iff that fits. Missing: the rejection of the numbers in between. -/
theorem C09_whole_too_large_partial (n : Numeral) (hn : n.Ok) (hm : n.Money) :
    (decimalValue n.whole < 2 ^ 63 → parseAmount n.text = .ok (BitVec.ofInt 64 n.hundredths)) ∧
    (2 ^ 63 ≤ decimalValue n.whole → ∃ s, parseAmount n.text = .error (.err (.number s))) := by
  have h2 : (decimalValue n.places : Int) < 2 ^ 63 := by
    cases hf : n.fraction with
    | none => simp [Numeral.places, hf, decimalValue_nil]
    | some f =>
      have := decimalValue_lt (hn.2 f (by simp [hf])).2
      rw [hm f (by simp [hf])] at this
      simp only [Numeral.places, hf, Option.getD_some]
      omega
  refine ⟨fun h => numeral_read n hn (by omega) h2, fun h => ?_⟩
  obtain ⟨c, cs, he⟩ := List.exists_cons_of_ne_nil hn.1.1
  obtain ⟨h3, h4, _⟩ := digit_not_sign (hn.1.2 c (by simp [he]))
  have hp : parseInt n.whole = none := by
    have := parseInt_text .absent hn.1
    rw [if_neg (by simp only [Sign.apply, Int64Range]; omega)] at this
    exact this
  have hs : ∀ t, parseAmount (n.sign.text ++ (n.whole ++ t)) = unsignedAmount n.sign.factor (n.whole ++ t) := by
    intro t
    rw [he]
    exact parseAmount_sign n.sign c (cs ++ t) fun _ => ⟨h3, h4⟩
  rw [Numeral.text, List.append_assoc, hs]
  cases n.fraction with
  | none =>
    rw [List.append_nil, unsigned_no_point _ (digits_no_point hn.1), hp]
    exact ⟨_, rfl⟩
  | some f =>
    rw [unsigned_point _ _ (digits_no_point hn.1), hp]
    exact ⟨_, rfl⟩

/-- A number on each side of the limit. -/
example : let n : Numeral := { whole := str "9223372036854775808", fraction := some (str "00") }
    let m : Numeral := { whole := str "9223372036854775807", fraction := some (str "00") }
    n.Ok ∧ n.Money ∧ 2 ^ 63 ≤ decimalValue n.whole ∧ m.Ok ∧ m.Money ∧ decimalValue m.whole < 2 ^ 63 := by decide

/-! ### C07 Amount display is exact -/

/-- The decimal rendering of `q` hundredths with two places. -/
def IsMoneyText (s : Str) (q : Int) : Prop :=
  ∃ n : Numeral, n.Ok ∧ (∃ f, n.fraction = some f ∧ f.length = 2) ∧ (n.sign = .minus ↔ q < 0) ∧ n.sign ≠ .plus ∧
    (n.whole.head? = some '0' → n.whole = ['0']) ∧ s = n.text ∧ n.hundredths = q

theorem natDigits_head (n : Nat) : (natDigits n).head? = some '0' → natDigits n = ['0'] := by
  have aux : ∀ f n, n ≤ f → (natDigitsAux f n).head? = some '0' → n = 0 := by
    intro f
    induction f with
    | zero => intro n hn _; omega
    | succ f ih =>
      intro n hn h
      rw [natDigitsAux] at h
      by_cases h10 : n < 10
      · rw [if_pos h10] at h
        simp only [List.head?_cons, Option.some.injEq] at h
        have := ofNat_digit h10
        rw [h] at this
        have e : '0'.toNat = 48 := rfl
        omega
      · rw [if_neg h10] at h
        have hne := (natDigitsAux_spec f (n / 10) (by omega)).1.1
        obtain ⟨c, cs, hc⟩ := List.exists_cons_of_ne_nil hne
        rw [hc] at h
        simp only [List.cons_append, List.head?_cons] at h
        have := ih (n / 10) (by omega) (by rw [hc]; simpa using h)
        omega
  intro h
  rw [aux n n le_rfl h]
  rfl

theorem log2_lt {n k : Nat} (h0 : n ≠ 0) (h : n < 2 ^ k) : Nat.log2 n < k := by
  rwa [Nat.log2_lt h0]

/-- Integers below 2^53 are exact doubles. -/
theorem toDbl_nat {n : Nat} (h : n < 2 ^ 53) (h0 : n ≠ 0) :
    ∃ k : Nat, toDbl n 1 = ⟨n * 2 ^ k, -(k : Int)⟩ := by
  unfold toDbl
  rw [if_neg h0]
  have hl : Nat.log2 (n * 2 ^ 64 / 1) < 53 + 64 := by
    rw [Nat.div_one]
    refine log2_lt (by positivity) ?_
    rw [Nat.pow_add]
    exact Nat.mul_lt_mul_of_pos_right h (by positivity)
  simp only
  generalize Nat.log2 (n * 2 ^ 64 / 1) = l at hl
  by_cases he : (0 : Int) ≤ (l : Int) - 64 - 52
  · have : (l : Int) - 64 - 52 = 0 := by omega
    rw [if_pos he, this]
    exact ⟨0, by simp [rne_one]⟩
  · rw [if_neg he]
    refine ⟨(-((l : Int) - 64 - 52)).toNat, ?_⟩
    rw [rne_one]
    congr 1
    omega

/-- The quotient by 100, rounded to a double, is close enough to be printed as itself. -/
theorem hundredths_exact {n : Nat} (h : n < 100 * 2 ^ 46) : ((toDbl n 1).div100).hundredths = n := by
  by_cases h0 : n = 0
  · subst h0; decide
  obtain ⟨k, hk⟩ := toDbl_nat (n := n) (by omega) h0
  -- the fraction divided
  obtain ⟨p, hp, e1⟩ : ∃ p : Nat, 0 < p ∧ (toDbl n 1).div100 = toDbl (n * p) (100 * p) := by
    rw [hk, Dbl.div100]
    by_cases hk0 : k = 0
    · subst hk0
      exact ⟨1, by norm_num, by simp⟩
    · rw [if_neg (by simp; omega)]
      refine ⟨2 ^ k, by positivity, ?_⟩
      simp
  rw [e1]
  have hnp : n * p ≠ 0 := Nat.mul_ne_zero h0 (by omega)
  have hq : n * p * 2 ^ 64 / (100 * p) < 2 ^ 110 := by
    rw [Nat.div_lt_iff_lt_mul (by omega)]
    have h1 : n * p < 100 * 2 ^ 46 * p := Nat.mul_lt_mul_of_pos_right h hp
    calc n * p * 2 ^ 64 < 100 * 2 ^ 46 * p * 2 ^ 64 := Nat.mul_lt_mul_of_pos_right h1 (by positivity)
      _ = 2 ^ 110 * (100 * p) := by ring
  have hl : Nat.log2 (n * p * 2 ^ 64 / (100 * p)) < 110 := by
    by_cases hz : n * p * 2 ^ 64 / (100 * p) = 0
    · rw [hz]; decide
    · exact log2_lt hz hq
  unfold toDbl
  rw [if_neg hnp]
  simp only
  generalize Nat.log2 (n * p * 2 ^ 64 / (100 * p)) = l at hl
  have he : ¬ (0 : Int) ≤ (l : Int) - 64 - 52 := by omega
  rw [if_neg he]
  unfold Dbl.hundredths
  rw [if_neg he]
  obtain ⟨j, hj⟩ : ∃ j : Nat, (-((l : Int) - 64 - 52)).toNat = j + 7 := ⟨(-((l : Int) - 64 - 52)).toNat - 7, by omega⟩
  rw [hj]
  have hK : 128 ≤ 2 ^ (j + 7) := by
    rw [Nat.pow_add]
    have : 1 ≤ 2 ^ j := Nat.one_le_two_pow
    omega
  simp only
  generalize 2 ^ (j + 7) = K at hK
  obtain ⟨h1, h2⟩ := rne_close (n * p * K) (100 * p) (by omega)
  generalize rne (n * p * K) (100 * p) = m at h1 h2
  have h1' : (200 * m) * p ≤ (2 * (n * K) + 100) * p := by nlinarith
  have h2' : (2 * (n * K)) * p ≤ (200 * m + 100) * p := by nlinarith
  have h1'' := Nat.le_of_mul_le_mul_right h1' hp
  have h2'' := Nat.le_of_mul_le_mul_right h2' hp
  exact rne_of_close (by omega) (by omega)

/-- The text displayed for a quantity. -/
theorem display_numeral {q : I64} (h : q.toInt.natAbs < 100 * 2 ^ 46) :
    displayQuantity q = Numeral.text { sign := if q.toInt < 0 then .minus else .absent,
                                       whole := natDigits (q.toInt.natAbs / 100),
                                       fraction := some (pad2 (q.toInt.natAbs % 100)) } := by
  unfold displayQuantity
  rw [hundredths_exact h]
  by_cases hq : q.toInt < 0 <;> simp [hq, Numeral.text, Sign.text, renderHundredths]

theorem display_value (q : I64) :
    Numeral.hundredths { sign := if q.toInt < 0 then .minus else .absent,
                         whole := natDigits (q.toInt.natAbs / 100),
                         fraction := some (pad2 (q.toInt.natAbs % 100)) } = q.toInt := by
  simp only [Numeral.hundredths, Numeral.places, Option.getD_some, natDigits_value, pad2_value (Nat.mod_lt _ (show 100 > 0 by norm_num))]
  by_cases hq : q.toInt < 0
  · simp only [hq, if_true, Sign.apply]; omega
  · simp only [hq, if_false, Sign.apply]; omega

/-- The displayed quantity is the decimal rendering with two places of quantity/100, for every quantity of magnitude below
100*2^46, although it is computed with float64 division and rounding; the commodity is put in front. -/
theorem C07_display_exact (a : Amount) (h : a.quantity.toInt.natAbs < 100 * 2 ^ 46) :
    ∃ s, IsMoneyText s a.quantity.toInt ∧ a.display false = s ∧ a.display true = a.commodity ++ s := by
  refine ⟨displayQuantity a.quantity, ?_, rfl, rfl⟩
  refine ⟨_, ?_, ⟨_, rfl, rfl⟩, ?_, ?_, natDigits_head _, display_numeral h, display_value _⟩
  · exact ⟨natDigits_digits _, by simpa using pad2_digits _⟩
  · by_cases hq : a.quantity.toInt < 0 <;> simp [hq]
  · by_cases hq : a.quantity.toInt < 0 <;> simp [hq]

/-- Beyond the range the display can be wrong: 2^63-1 hundredths is shown as 92233720368547760.00 (it is
92233720368547758.07). -/
theorem C07_display_beyond_false : ¬ ∀ q : I64, IsMoneyText (displayQuantity q) q.toInt := by
  intro h
  obtain ⟨n, hn, ⟨f, hf, hl⟩, _, _, _, ht, hv⟩ := h (BitVec.ofInt 64 9223372036854775807)
  have h1 : displayQuantity (BitVec.ofInt 64 9223372036854775807) = str "92233720368547760.00" := by decide +kernel
  rw [h1] at ht
  -- the text read by the program
  have hr : Int64Range n.hundredths := by rw [hv]; decide
  obtain ⟨q, e1, e2, _⟩ := C06_decimal_value_partial n hn (by intro f' hf'; rw [hf] at hf'; cases hf'; exact hl) hr
  rw [← ht] at e1
  rw [hv] at e2
  have h3 : parseAmount (str "92233720368547760.00") = .ok (BitVec.ofInt 64 9223372036854776000) := by decide +kernel
  rw [h3] at e1
  cases e1
  revert e2
  decide

/-- In range, and the text shown. -/
example : (BitVec.ofInt 64 (-705) : I64).toInt.natAbs < 100 * 2 ^ 46 ∧
    (Amount.mk (str "£") (BitVec.ofInt 64 (-705))).display true = str "£-7.05" := by decide +kernel

/-! ### C08 Displayed amounts parse back -/

/-- Reading the displayed text gives the quantity back. -/
theorem C08_display_parses_back (q : I64) (h : q.toInt.natAbs < 100 * 2 ^ 46) : parseAmount (displayQuantity q) = .ok q := by
  rw [display_numeral h, numeral_read, display_value, BitVec.ofInt_toInt]
  · exact ⟨natDigits_digits _, by simpa using pad2_digits _⟩
  · simp only [natDigits_value]; omega
  · simp only [Numeral.places, Option.getD_some, pad2_value (Nat.mod_lt _ (show 100 > 0 by norm_num))]; omega

/-- Hypothesis met by the smallest and largest quantities of the range, which are read back. -/
example : parseAmount (displayQuantity (BitVec.ofInt 64 (-(100 * 2 ^ 46 - 1)))) = .ok (BitVec.ofInt 64 (-(100 * 2 ^ 46 - 1))) :=
  C08_display_parses_back _ (by decide)

end Gledger
