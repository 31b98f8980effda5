/-
C69 The time period, C70 Transactions per day, C71 The age of money in days, C72 The statistics report
-/
import Verif.Lemmas.Float
import Verif.Props.Statistics
import Verif.Props.Delivered
import Verif.Spec.StatsText

set_option maxRecDepth 100000

namespace Gledger

theorem dbl_val_of_num {x : Dbl} {n : Nat} (h : x.num = n * x.den) : x.val = n := by
  have := x.den_pos
  unfold Dbl.val
  rw [h]
  push_cast
  field_simp

theorem toDbl_nat_val {n : Nat} (h : n < 2 ^ 53) : (toDbl n 1).val = n ∧ (toDbl n 1).num = n * (toDbl n 1).den := by
  have := toDbl_whole n 1 (by norm_num) h
  rw [Nat.mul_one] at this
  exact ⟨dbl_val_of_num this, this⟩

theorem Dbl.den_pos' (x : Dbl) : 0 < x.den := by unfold Dbl.den; positivity

/-! ### C69 The time period -/

/-- Hours of whole days, and days, are exact. -/
theorem daysOf_whole (d : Nat) (h : 24 * d < 2 ^ 53) : (daysOf (d * (24 * nsPerHour))).num = d * (daysOf (d * (24 * nsPerHour))).den := by
  have h1 : d * (24 * nsPerHour) / nsPerHour = d * 24 := by
    rw [← Nat.mul_assoc, Nat.mul_div_cancel _ (by decide)]
  have h2 : d * (24 * nsPerHour) % nsPerHour = 0 := by
    rw [← Nat.mul_assoc]; exact Nat.mul_mod_left _ _
  have h3 : hoursOf (d * (24 * nsPerHour)) = toDbl (d * 24 * (toDbl (d * 24) 1).den) (toDbl (d * 24) 1).den := by
    unfold hoursOf
    rw [h1, h2]
    have : (toDbl 0 1).div ⟨nsPerHour, 0⟩ = ⟨0, 0⟩ := by decide
    rw [this]
    unfold Dbl.add
    rw [(toDbl_nat_val (n := d * 24) (by omega)).2]
    simp [Dbl.num, Dbl.den]
  have h4 := toDbl_whole (d * 24) (toDbl (d * 24) 1).den (Dbl.den_pos' _) (by omega)
  rw [← h3] at h4
  have h5 : daysOf (d * (24 * nsPerHour)) =
      toDbl (d * (24 * (hoursOf (d * (24 * nsPerHour))).den)) (24 * (hoursOf (d * (24 * nsPerHour))).den) := by
    conv_lhs => unfold daysOf Dbl.div
    rw [h4]
    congr 1
    · simp [Dbl.den]; ring
    · simp [Dbl.num]; ring
  rw [h5]
  exact toDbl_whole d _ (by have := Dbl.den_pos' (hoursOf (d * (24 * nsPerHour))); omega) (by omega)

theorem round_whole {x : Dbl} {n : Nat} (h : x.num = n * x.den) : x.round = n := by
  unfold Dbl.round
  have := x.den_pos'
  rw [h, show 2 * (n * x.den) + x.den = x.den + n * (2 * x.den) by ring, Nat.add_mul_div_right _ _ (by omega),
    Nat.div_eq_of_lt (by omega), Nat.zero_add]

/-- Days of a period below 292 years. -/
theorem C69_period_days_partial (s : Stats) (h0 : s.first.dayNumber ≤ s.last.dayNumber)
    (h : (s.last.dayNumber - s.first.dayNumber) * nsPerDay < 2 ^ 63) : (s.days : Int) = s.last.dayNumber - s.first.dayNumber := by
  obtain ⟨n, hn⟩ : ∃ n : Nat, s.last.dayNumber - s.first.dayNumber = n := ⟨(s.last.dayNumber - s.first.dayNumber).toNat, by omega⟩
  have hd := durationNs_toInt s.last s.first (by rw [hn]; unfold nsPerDay; omega) h
  rw [hn] at h hd ⊢
  unfold Stats.days
  rw [hd]
  have : ((n : Int) * nsPerDay).toNat = n * (24 * nsPerHour) := by
    unfold nsPerDay nsPerHour; omega
  rw [this, round_whole (daysOf_whole n (by unfold nsPerDay at h; omega))]

/-- Longer periods are all shown as 106752 days, the longest duration there is, rounded. So the number is the smaller of the two. -/
theorem C69_period_shown_partial (s : Stats) (h0 : s.first.dayNumber ≤ s.last.dayNumber) :
    (s.days : Int) = min (s.last.dayNumber - s.first.dayNumber) 106752 := by
  by_cases h : (s.last.dayNumber - s.first.dayNumber) * nsPerDay < 2 ^ 63
  · rw [C69_period_days_partial s h0 h]
    unfold nsPerDay at h
    omega
  · have hd : durationNs s.last s.first = BitVec.ofInt 64 (2 ^ 63 - 1) := by
      unfold durationNs
      simp only
      rw [min_eq_right (by omega), max_eq_right (by omega)]
    have hc : (daysOf (BitVec.ofInt 64 (2 ^ 63 - 1)).toInt.toNat).round = 106752 := by decide +kernel
    unfold Stats.days
    rw [hd, hc]
    unfold nsPerDay at h
    omega

/-- A period of two thousand years. -/
example : ({ first := ⟨1, 1, 2⟩, last := ⟨2000, 1, 1⟩ } : Stats).days = 106752 := by decide +kernel

/-- Years 1 to 2000: the difference of the two instants does not fit in a duration, and 106752 days are shown. -/
theorem C69_period_days_false :
    ¬ ∀ s : Stats, s.first.dayNumber ≤ s.last.dayNumber → (s.days : Int) = s.last.dayNumber - s.first.dayNumber := by
  intro h
  have := h { first := ⟨1, 1, 2⟩, last := ⟨2000, 1, 1⟩ } (by decide)
  revert this
  decide +kernel

/-! ### C70 Transactions per day -/

/-- The number shown is the number of transactions per day, to the nearest tenth. -/
theorem C70_per_day_partial (count days : Nat) (hd : 0 < days) (hb : days < 2 ^ 53) (hc : 20 * count < 2 ^ 53) :
    ∃ tenths : Nat, perDay count days = natDigits (tenths / 10) ++ ['.'] ++ natDigits (tenths % 10) ∧
      |2 * ((tenths : Int) * days - 10 * count)| ≤ days := by
  unfold perDay
  rw [if_neg (by omega)]
  refine ⟨_, rfl, ?_⟩
  have c1 := (toDbl_nat_val (n := count) (by omega)).2
  have d1 := (toDbl_nat_val hb).2
  have pc := Dbl.den_pos' (toDbl count 1)
  have pd := Dbl.den_pos' (toDbl days 1)
  have hq : ((toDbl count 1).num * (toDbl days 1).den : ℚ) / ((toDbl count 1).den * (toDbl days 1).num) = count / days := by
    rw [c1, d1]
    have : (0 : ℚ) < days := by exact_mod_cast hd
    have : (0 : ℚ) < (toDbl count 1).den := by exact_mod_cast pc
    have : (0 : ℚ) < (toDbl days 1).den := by exact_mod_cast pd
    push_cast
    field_simp
  have hx := toDbl_close ((toDbl count 1).num * (toDbl days 1).den) ((toDbl count 1).den * (toDbl days 1).num)
    (Nat.mul_pos pc (by rw [d1]; exact Nat.mul_pos hd pd)) (by
      by_cases h0 : count = 0
      · left; rw [c1, h0]; simp
      · right
        rw [c1, d1]
        calc (toDbl count 1).den * (days * (toDbl days 1).den) ≤ (toDbl count 1).den * (2 ^ 64 * (toDbl days 1).den) :=
              Nat.mul_le_mul_left _ (Nat.mul_le_mul_right _ (by omega))
          _ = 1 * (toDbl count 1).den * (toDbl days 1).den * 2 ^ 64 := by ring
          _ ≤ _ := Nat.mul_le_mul_right _ (Nat.mul_le_mul_right _ (Nat.mul_le_mul_right _ (by omega))))
  push_cast at hx
  rw [hq] at hx
  change |((toDbl count 1).div (toDbl days 1)).val - _| ≤ _ at hx
  generalize (toDbl count 1).div (toDbl days 1) = x at hx
  have hr := rne_val (x.num * 10) x.den x.den_pos'
  push_cast at hr
  rw [show (x.num : ℚ) * 10 / x.den = 10 * x.val by unfold Dbl.val; ring] at hr
  generalize rne (x.num * 10) x.den = t at hr
  generalize x.val = v at hx hr
  have hd' : (0 : ℚ) < days := by exact_mod_cast hd
  have hc' : (20 * count : ℚ) < 2 ^ 53 := by exact_mod_cast hc
  -- the error, in days
  have e : (count : ℚ) / days * days = count := by field_simp
  generalize (count : ℚ) / days = r at *
  have hr0 : 0 ≤ r := by
    by_contra h
    push Not at h
    have : (0 : ℚ) ≤ count := by positivity
    nlinarith
  rw [abs_le] at hx hr
  have b1 : (t : ℚ) - 10 * r ≤ 1 / 2 + 10 * (r / 2 ^ 53) := by linarith [hx.2, hr.2]
  have b2 : -(1 / 2 + 10 * (r / 2 ^ 53)) ≤ (t : ℚ) - 10 * r := by linarith [hx.1, hr.1]
  have e2 : r / 2 ^ 53 * days < 1 / 20 := by
    rw [div_mul_eq_mul_div, e, div_lt_iff₀ (by positivity)]
    linarith
  have b3 : 2 * ((t : ℚ) * days - 10 * count) < days + 1 := by
    have := mul_le_mul_of_nonneg_right b1 hd'.le
    rw [← e]
    nlinarith
  have b4 : -(days + 1 : ℚ) < 2 * ((t : ℚ) * days - 10 * count) := by
    have := mul_le_mul_of_nonneg_right b2 hd'.le
    rw [← e]
    nlinarith
  have b5 : 2 * ((t : Int) * days - 10 * count) < days + 1 := by exact_mod_cast b3
  have b6 : -((days : Int) + 1) < 2 * ((t : Int) * days - 10 * count) := by exact_mod_cast b4
  rw [abs_le]
  omega

/-- If all transactions are on one day then no number is shown. -/
theorem C70_per_day_false : ¬ ∀ s : Stats, s.count ≠ 0 → s.first.dayNumber ≤ s.last.dayNumber → ∀ c ∈ perDay s.count s.days, c = '.' ∨ isDigit c := by
  intro h
  have := h { count := 3, first := ⟨2020, 1, 1⟩, last := ⟨2020, 1, 1⟩ } (by decide) (by decide)
  revert this
  decide +kernel

/-- Two transactions in three days: 0.7. -/
example : perDay 2 3 = str "0.7" := by decide +kernel

/-! ### C71 The age of money in days -/

theorem dbl_val_nonneg (x : Dbl) : 0 ≤ x.val := by unfold Dbl.val; positivity

/-- Two roundings after each other. -/
theorem close_trans {a b c : ℚ} {m n : ℚ} (h1 : |b - a| ≤ a * m) (h2 : |c - b| ≤ b * n) (hn : 0 ≤ n) :
    |c - a| ≤ a * (m + n + m * n) := by
  rw [abs_le] at *
  have : b ≤ a * (1 + m) := by linarith [h1.2]
  have h3 : b * n ≤ a * (1 + m) * n := mul_le_mul_of_nonneg_right this hn
  constructor <;> nlinarith

/-- The fraction of an hour. -/
theorem hourPart_close (r : Nat) (hlt : r < nsPerHour) :
    |((toDbl r 1).div ⟨nsPerHour, 0⟩).val - r / nsPerHour| ≤ (r / nsPerHour : ℚ) * (1 / 2 ^ 53) := by
  have hsm : nsPerHour < 2 ^ 53 := by decide
  have e := (toDbl_nat_val (n := r) (by omega)).2
  have p := Dbl.den_pos' (toDbl r 1)
  have p' : (0 : ℚ) < (toDbl r 1).den := (toDbl r 1).den_pos
  unfold Dbl.div
  generalize toDbl r 1 = x at *
  have e1 : (Dbl.mk nsPerHour 0).den = 1 := rfl
  have e2 : (Dbl.mk nsPerHour 0).num = nsPerHour := by simp [Dbl.num]
  rw [e1, e2, Nat.mul_one]
  have hx := toDbl_close x.num (x.den * nsPerHour) (Nat.mul_pos p (by decide)) (by
    by_cases h0 : r = 0
    · left; rw [e, h0]; simp
    · right
      rw [e]
      calc x.den * nsPerHour ≤ x.den * (1 * 2 ^ 64) := Nat.mul_le_mul_left _ (by decide)
        _ = 1 * x.den * 2 ^ 64 := by ring
        _ ≤ _ := Nat.mul_le_mul_right _ (Nat.mul_le_mul_right _ (by omega)))
  have hq : ((x.num : ℚ)) / (x.den * nsPerHour : Nat) = r / nsPerHour := by
    rw [e]
    have : (0 : ℚ) < nsPerHour := by norm_num [nsPerHour]
    push_cast
    field_simp
  rw [hq] at hx
  rwa [div_eq_mul_one_div _ ((2 : ℚ) ^ 53)] at hx

theorem sum_val (x y : Dbl) : ((x.num * y.den + y.num * x.den : Nat) : ℚ) / (x.den * y.den : Nat) = x.val + y.val := by
  have := x.den_pos
  have := y.den_pos
  unfold Dbl.val
  push_cast
  field_simp

theorem add_close (A B : Dbl) (h : (1 : ℚ) / 2 ^ 60 ≤ A.val + B.val) : |(A.add B).val - (A.val + B.val)| ≤ (A.val + B.val) * (1 / 2 ^ 53) := by
  have s2 := toDbl_close (A.num * B.den + B.num * A.den) (A.den * B.den) (Nat.mul_pos A.den_pos' B.den_pos') (by
    right
    have hp : (0 : ℚ) < (A.den * B.den : Nat) := by exact_mod_cast Nat.mul_pos A.den_pos' B.den_pos'
    have := h
    rw [← sum_val, div_le_div_iff₀ (by positivity) hp] at this
    have h2 : ((A.den * B.den : Nat) : ℚ) ≤ (A.num * B.den + B.num * A.den : Nat) * 2 ^ 60 := by linarith
    have h3 : A.den * B.den ≤ (A.num * B.den + B.num * A.den) * 2 ^ 60 := by exact_mod_cast h2
    exact h3.trans (Nat.mul_le_mul_left _ (by norm_num)))
  rw [sum_val, div_eq_mul_one_div _ ((2 : ℚ) ^ 53)] at s2
  exact s2

theorem div24_close (H : Dbl) (h : (1 : ℚ) / 2 ^ 51 ≤ H.val) : |(H.div ⟨24, 0⟩).val - H.val / 24| ≤ H.val / 24 * (1 / 2 ^ 53) := by
  have hp : (0 : ℚ) < H.den := H.den_pos
  unfold Dbl.div
  have e1 : (Dbl.mk 24 0).den = 1 := rfl
  have e2 : (Dbl.mk 24 0).num = 24 := by simp [Dbl.num]
  rw [e1, e2, Nat.mul_one]
  have s4 := toDbl_close H.num (H.den * 24) (Nat.mul_pos H.den_pos' (by decide)) (by
    right
    have := h
    unfold Dbl.val at this
    rw [div_le_div_iff₀ (by positivity) hp] at this
    have h2 : (H.den : ℚ) ≤ H.num * 2 ^ 51 := by linarith
    have h3 : H.den ≤ H.num * 2 ^ 51 := by exact_mod_cast h2
    calc H.den * 24 ≤ H.num * 2 ^ 51 * 24 := Nat.mul_le_mul_right _ h3
      _ = H.num * (2 ^ 51 * 24) := Nat.mul_assoc _ _ _
      _ ≤ _ := Nat.mul_le_mul_left _ (by norm_num))
  have hq : (H.num : ℚ) / (H.den * 24 : Nat) = H.val / 24 := by
    unfold Dbl.val
    push_cast
    field_simp
  rw [hq, div_eq_mul_one_div _ ((2 : ℚ) ^ 53)] at s4
  exact s4

theorem hour_val : (nsPerHour : ℚ) = 3600000000000 := by norm_num [nsPerHour]

theorem hoursOf_close (ns : Nat) (h : ns < 2 ^ 63) (h0 : ns ≠ 0) :
    |(hoursOf ns).val - ns / nsPerHour| ≤ (ns / nsPerHour : ℚ) * (1 / 2 ^ 53 + 1 / 2 ^ 53 + 1 / 2 ^ 53 * (1 / 2 ^ 53)) := by
  have a1 := hourPart_close (ns % nsPerHour) (Nat.mod_lt _ (by decide))
  have hdiv : ns / nsPerHour < 2 ^ 53 := (Nat.div_lt_iff_lt_mul (by decide)).2 (h.trans (by decide))
  have b1 := (toDbl_nat_val hdiv).1
  have hsum : ((ns / nsPerHour : Nat) : ℚ) + ((ns % nsPerHour : Nat) : ℚ) / nsPerHour = ns / nsPerHour := by
    have := Nat.div_add_mod ns nsPerHour
    have h' : (nsPerHour : ℚ) * (ns / nsPerHour : Nat) + (ns % nsPerHour : Nat) = ns := by exact_mod_cast this
    have : (0 : ℚ) < nsPerHour := by rw [hour_val]; norm_num
    rw [← h']
    field_simp
  unfold hoursOf
  have hns : (1 : ℚ) ≤ ns := by exact_mod_cast Nat.one_le_iff_ne_zero.2 h0
  generalize toDbl (ns / nsPerHour) 1 = A at *
  generalize (toDbl (ns % nsPerHour) 1).div ⟨nsPerHour, 0⟩ = B at *
  have s1 : |(A.val + B.val) - ns / nsPerHour| ≤ (ns / nsPerHour : ℚ) * (1 / 2 ^ 53) := by
    have : A.val + B.val - ns / nsPerHour = B.val - (ns % nsPerHour : Nat) / nsPerHour := by rw [← hsum, b1]; ring
    rw [this]
    refine a1.trans (mul_le_mul_of_nonneg_right ?_ (by positivity))
    rw [← hsum]
    have : (0 : ℚ) ≤ (ns / nsPerHour : Nat) := by positivity
    linarith
  have low : (1 : ℚ) / 2 ^ 50 ≤ ns / nsPerHour := by
    rw [hour_val, div_le_div_iff₀ (by positivity) (by norm_num)]
    linarith
  refine close_trans s1 (add_close A B ?_) (by positivity)
  generalize (ns : ℚ) / nsPerHour = q at *
  rw [abs_le] at s1
  linarith [s1.1]

theorem daysOf_close (ns : Nat) (h : ns < 2 ^ 63) : |(daysOf ns).val - ns / (24 * nsPerHour)| ≤ (ns / (24 * nsPerHour) : ℚ) / 2 ^ 51 := by
  by_cases h0 : ns = 0
  · subst h0
    have : daysOf 0 = ⟨0, 0⟩ := by decide +kernel
    rw [this]; simp [Dbl.val, Dbl.num]
  have s3 := hoursOf_close ns h h0
  have hns : (1 : ℚ) ≤ ns := by exact_mod_cast Nat.one_le_iff_ne_zero.2 h0
  have low : (1 : ℚ) / 2 ^ 50 ≤ ns / nsPerHour := by
    rw [hour_val, div_le_div_iff₀ (by positivity) (by norm_num)]
    linarith
  unfold daysOf
  generalize hoursOf ns = H at *
  have e : (ns : ℚ) / (24 * nsPerHour) = ns / nsPerHour / 24 := by
    rw [hour_val]; ring
  rw [e]
  have hq : (0 : ℚ) ≤ ns / nsPerHour := by positivity
  generalize (ns : ℚ) / nsPerHour = q at *
  have s5 : |H.val / 24 - q / 24| ≤ q / 24 * (1 / 2 ^ 53 + 1 / 2 ^ 53 + 1 / 2 ^ 53 * (1 / 2 ^ 53)) := by
    rw [← sub_div, abs_div, abs_of_pos (show (0 : ℚ) < 24 by norm_num), div_mul_eq_mul_div]
    exact div_le_div_of_nonneg_right s3 (by norm_num)
  have low2 : (1 : ℚ) / 2 ^ 51 ≤ H.val := by
    rw [abs_le] at s3
    linarith [s3.1]
  have s6 := close_trans s5 (div24_close H low2) (by positivity)
  refine s6.trans ?_
  rw [div_eq_mul_one_div _ ((2 : ℚ) ^ 51)]
  refine mul_le_mul_of_nonneg_left ?_ (by positivity)
  norm_num

/-- The age shown is the average in days, to the nearest day, up to five microseconds; a negative one is shown as 0. -/
theorem C71_age_days (average : I64) :
    ∃ days : Nat, (ageOfMoney average).format0 = natDigits days ∧
      |2 * ((days : Int) * nsPerDay - max 0 average.toInt)| ≤ nsPerDay + 10000 := by
  refine ⟨rne (ageOfMoney average).num (ageOfMoney average).den, rfl, ?_⟩
  by_cases h : average.toInt < 0
  · have e : ageOfMoney average = ⟨0, 0⟩ := if_pos h
    rw [max_eq_left h.le, e, show rne (Dbl.mk 0 0).num (Dbl.mk 0 0).den = 0 by decide]
    norm_num [nsPerDay]
  · obtain ⟨n, hn⟩ : ∃ n : Nat, average.toInt = n := ⟨average.toInt.toNat, by omega⟩
    have e : ageOfMoney average = daysOf n := by
      unfold ageOfMoney
      rw [if_neg h, hn, Int.toNat_natCast]
    have hb : average.toInt < 9223372036854775808 := by
      have := BitVec.toInt_lt (x := average)
      norm_num at this
      exact this
    rw [max_eq_right (by omega), e, hn]
    rw [hn] at hb
    have h1 := daysOf_close n (by rw [show (2 : Nat) ^ 63 = 9223372036854775808 by norm_num]; omega)
    generalize daysOf n = x at *
    have h2 := rne_val x.num x.den x.den_pos'
    change |_ - x.val| ≤ _ at h2
    generalize rne x.num x.den = d at *
    generalize x.val = v at *
    have hb' : (n : ℚ) < 9223372036854775808 := by exact_mod_cast hb
    rw [hour_val] at h1
    rw [abs_le] at h1 h2
    have e : (2 : ℚ) * (d * 86400000000000 - n) ≤ 86400000000000 + 10000 := by
      linarith [h1.2, h2.2]
    have e' : -(86400000000000 + 10000) ≤ (2 : ℚ) * (d * 86400000000000 - n) := by
      linarith [h1.1, h2.1]
    have e1 : (2 : Int) * (d * 86400000000000 - n) ≤ 86400000000000 + 10000 := by
      rw [← Int.cast_le (R := ℚ)]
      push_cast
      linarith
    have e2 : -(86400000000000 + 10000) ≤ (2 : Int) * (d * 86400000000000 - n) := by
      rw [← Int.cast_le (R := ℚ)]
      push_cast
      linarith
    rw [show nsPerDay = 86400000000000 by norm_num [nsPerDay], abs_le]
    exact ⟨e2, e1⟩

/-! ### How old money can be -/

theorem ageInner_mem (ek : Date) : ∀ (iks : List Date) (expense : I64) (buckets : Buckets) (ages : List (Date × Date)), ∀ a ∈ (ageInner ek iks expense buckets ages).2,
    a ∈ ages ∨ a.1 = ek ∧ a.2 ∈ iks := by
  intro iks
  induction iks with
  | nil => exact fun _ _ _ a h => Or.inl h
  | cons ik iks ih =>
    intro expense buckets ages a h
    rw [ageInner] at h
    dsimp only at h
    have one : a ∈ ages ++ [(ek, ik)] → a ∈ ages ∨ a.1 = ek ∧ a.2 ∈ ik :: iks := by
      intro h
      rcases List.mem_append.1 h with h | h
      · exact Or.inl h
      · rw [List.mem_singleton.1 h]
        exact Or.inr ⟨rfl, by simp⟩
    split at h
    · exact (ih _ _ _ a h).imp id fun h => ⟨h.1, List.mem_cons_of_mem _ h.2⟩
    · split at h
      · rcases ih _ _ _ a h with h | h
        · exact one h
        · exact Or.inr ⟨h.1, List.mem_cons_of_mem _ h.2⟩
      · exact one h

theorem ageOuter_mem (expenses : Buckets) (iks : List Date) : ∀ (eks : List Date) (buckets : Buckets) (ages : List (Date × Date)),
    ∀ a ∈ (ageOuter expenses iks eks buckets ages).2, a ∈ ages ∨ a.1 ∈ eks ∧ a.2 ∈ iks := by
  intro eks
  induction eks with
  | nil => exact fun _ _ a h => Or.inl h
  | cons ek eks ih =>
    intro buckets ages a h
    rw [ageOuter] at h
    rcases ih _ _ a h with h | h
    · rcases ageInner_mem ek iks _ _ _ a h with h | h
      · exact Or.inl h
      · exact Or.inr ⟨by rw [h.1]; simp, h.2⟩
    · exact Or.inr ⟨List.mem_cons_of_mem _ h.1, h.2⟩

theorem toInt_sum_abs (l : List I64) : |l.sum.toInt| ≤ (l.map fun x => |x.toInt|).sum := by
  induction l with
  | nil => simp
  | cons x l ih =>
    rw [List.sum_cons, List.map_cons, List.sum_cons, BitVec.toInt_add]
    have h : ∀ z : Int, |Int.bmod z (2 ^ 64)| ≤ |z| := by
      intro z
      rw [Int.bmod_def]
      rcases abs_cases z with h | h <;> split <;> rw [abs_le] <;> omega
    exact (h _).trans ((abs_add_le _ _).trans (by omega))

theorem duration_abs (a b : Date) {P : Int} (h : |(a.dayNumber - b.dayNumber) * nsPerDay| ≤ P) : |(durationNs a b).toInt| ≤ P := by
  unfold durationNs
  simp only [BitVec.toInt_ofInt]
  rw [Int.bmod_eq_of_le (by omega) (by omega)]
  rw [abs_le] at h ⊢
  omega

/-- No average age is longer than the longest. -/
theorem averageAge_le {ages : List (Date × Date)} {P : Int} (hP : 0 ≤ P) (h : ∀ a ∈ ages, |(a.1.dayNumber - a.2.dayNumber) * nsPerDay| ≤ P) :
    |(averageAge ages).toInt| ≤ P := by
  unfold averageAge
  simp only
  generalize hs : ((ages.take (ages.length - if 20 < ages.length then 11 else 0)).map fun a => durationNs a.1 a.2).sum = s
  have h1 : |s.toInt| ≤ ages.length * P := by
    rw [← hs]
    refine (toInt_sum_abs _).trans ?_
    rw [List.map_map]
    have h2 : ∀ l : List (Date × Date), (∀ a ∈ l, |(a.1.dayNumber - a.2.dayNumber) * nsPerDay| ≤ P) →
        (l.map ((fun x : I64 => |x.toInt|) ∘ fun a => durationNs a.1 a.2)).sum ≤ l.length * P := by
      intro l
      induction l with
      | nil => simp
      | cons a l ih =>
        intro h
        have := ih fun a ha => h a (List.mem_cons_of_mem _ ha)
        have h3 := duration_abs a.1 a.2 (h a (by simp))
        rw [List.map_cons, List.sum_cons, List.length_cons]
        push_cast
        simp only [Function.comp] at *
        linarith
    refine (h2 _ fun a ha => h a (List.mem_of_mem_take ha)).trans ?_
    refine mul_le_mul_of_nonneg_right ?_ hP
    exact_mod_cast (List.length_take_le _ _).trans (Nat.sub_le _ _)
  have hq : |Int.tdiv s.toInt (max 1 (ages.length : Int))| ≤ P := by
    rw [← Int.natCast_natAbs, Int.natAbs_tdiv]
    have hm : (ages.length : Int) ≤ max 1 (ages.length : Int) := le_max_right _ _
    have hm1 : (1 : Int) ≤ max 1 (ages.length : Int) := le_max_left _ _
    generalize max 1 (ages.length : Int) = m at hm hm1
    show (((s.toInt.natAbs / m.natAbs : Nat)) : Int) ≤ P
    push_cast
    rw [abs_of_nonneg (by omega : 0 ≤ m)]
    refine Int.ediv_le_of_le_mul (by omega) (h1.trans ?_)
    rw [mul_comm]
    exact mul_le_mul_of_nonneg_left hm hP
  have hs2 := BitVec.le_toInt (x := s)
  have hs3 := BitVec.toInt_lt (x := s)
  rw [BitVec.toInt_ofInt]
  have hb : ∀ z : Int, |Int.bmod z (2 ^ 64)| ≤ |z| := by
    intro z
    rw [Int.bmod_def]
    rcases abs_cases z with h | h <;> split <;> rw [abs_le] <;> omega
  exact (hb _).trans hq

/-! ### C72 The statistics report -/

/-- The dates in order. -/
def SortsDates (sortDates : List Date → List Date) : Prop :=
  ∀ l, (sortDates l).Perm l ∧ (sortDates l).Pairwise fun a b => a.dayNumber ≤ b.dayNumber

/-- These are the figures of these transactions. Dates: if none is 1 January of year 1. Rate: a number if
the first and last date differ. Age of money: if no day's income is negative, each day's expenses are positive, and
the ages of all matches together are below 292 years. -/
structure FiguresOf (fs : List Filter) (ts : List (Transaction × Str)) (f : Figures) : Prop where
  /-- each file once -/
  files : f.files.Nodup ∧ ∀ a, a ∈ f.files ↔ ∃ tf ∈ ts, tf.2 = a
  /-- the earliest date -/
  first : (∀ tf ∈ ts, ¬ tf.1.date.isZero) → (∃ tf ∈ ts, tf.1.date = f.first) ∧ ∀ tf ∈ ts, f.first.dayNumber ≤ tf.1.date.dayNumber
  /-- the latest date -/
  last : (∀ tf ∈ ts, ¬ tf.1.date.isZero) → (∃ tf ∈ ts, tf.1.date = f.last) ∧ ∀ tf ∈ ts, tf.1.date.dayNumber ≤ f.last.dayNumber
  /-- the days between them, 106752 if there are more -/
  days : (∀ tf ∈ ts, ¬ tf.1.date.isZero) → (f.days : Int) = min (f.last.dayNumber - f.first.dayNumber) 106752
  /-- all transactions -/
  count : f.count = ts.length
  /-- to the nearest tenth -/
  rate : 0 < f.days → 20 * f.count < 2 ^ 53 → ∃ tenths : Nat, f.rate = natDigits (tenths / 10) ++ ['.'] ++ natDigits (tenths % 10) ∧
    |2 * ((tenths : Int) * f.days - 10 * f.count)| ≤ f.days
  /-- infinitely many on a single day -/
  rateZero : f.days = 0 → f.rate = str "+Inf"
  /-- each account once -/
  accounts : ∃ l : List Str, l.Nodup ∧ (∀ a, a ∈ l ↔ ∃ tf ∈ ts, ∃ p ∈ selection fs tf.1, p.accountPath = a) ∧ f.accounts = l.length
  /-- each payee once -/
  payees : ∃ l : List Str, l.Nodup ∧ (∀ a, a ∈ l ↔ ∃ tf ∈ ts, tf.1.payee = a) ∧ f.payees = l.length
  /-- to the nearest day, up to five microseconds -/
  age : ∃ incomeDays expenseDays : List Date,
    (DaysSorted incomeDays ∧ ∀ d, d ∈ incomeDays ↔ dayPostings fs incomeID ts d ≠ []) ∧
    (DaysSorted expenseDays ∧ ∀ d, d ∈ expenseDays ↔ dayPostings fs expensesID ts d ≠ []) ∧
    let income := fun d => (- valueOf (dayPostings fs incomeID ts d)).toInt
    let expense := fun d => (valueOf (dayPostings fs expensesID ts d)).toInt
    let ages := spending income expense incomeDays expenseDays
    ((∀ d ∈ incomeDays, 0 ≤ income d) → (∀ d ∈ expenseDays, 0 < expense d) →
      (ages.map fun a => |(a.1.dayNumber - a.2.dayNumber) * nsPerDay|).sum < 2 ^ 63 →
      |2 * ((f.age : Int) * nsPerDay - max 0 (shownMean ages))| ≤ nsPerDay + 10000)
  /-- no money is older than the period, however much or little is earned and spent -/
  young : (∀ tf ∈ ts, ¬ tf.1.date.isZero) → f.age ≤ f.days

theorem picked_real [Unicode] (e : Env) {fs : FileSystem} {maxOpen : Nat} {bytes : List UInt8} {path : Str} {tf : Transaction × Str}
    (ht : tf ∈ e.picked (delivered fs maxOpen bytes path)) : tf.1.date.Real ∧ tf.1.date.year ≤ 9999 := by
  obtain ⟨t, file⟩ := tf
  have hm : .normal t file ∈ callsOf fs recorder maxOpen bytes path [] := by
    rw [← delivered_calls]
    have := List.mem_of_mem_filter ht
    unfold normals at this
    obtain ⟨c, hc, hcs⟩ := List.mem_filterMap.1 this
    cases c with
    | normal t' f' => cases hcs; exact hc
    | periodic pt f' => cases hcs
  have := (C65_delivered_sound fs recorder maxOpen bytes path [] t file hm).1
  exact ⟨this.1, this.2.2.1⟩

theorem keys_sorted {sortDates : List Date → List Date} (hs : SortsDates sortDates) {l : List Date} (hn : l.Nodup) (hr : ∀ d ∈ l, d.Real) :
    DaysSorted (sortDates l) ∧ ∀ d, d ∈ sortDates l ↔ d ∈ l := by
  obtain ⟨hp, hw⟩ := hs l
  refine ⟨?_, fun d => hp.mem_iff⟩
  have hn' : (sortDates l).Nodup := hp.nodup_iff.2 hn
  refine (hw.and hn').imp_of_mem ?_
  rintro a b ha hb ⟨h1, h2⟩
  rcases lt_or_eq_of_le h1 with h | h
  · exact h
  · exact absurd (dayNumber_inj (hr a (hp.mem_iff.1 ha)) (hr b (hp.mem_iff.1 hb)) h) h2

/-- A duration is below 2^63 nanoseconds. -/
theorem days_bound (s : Stats) : s.days < 2 ^ 53 := by
  unfold Stats.days
  have hb : (durationNs s.last s.first).toInt < 9223372036854775808 := by
    have := BitVec.toInt_lt (x := durationNs s.last s.first)
    norm_num at this
    exact this
  have hn : (durationNs s.last s.first).toInt.toNat < 2 ^ 63 := by omega
  generalize (durationNs s.last s.first).toInt.toNat = n at *
  have h1 := daysOf_close n hn
  generalize daysOf n = x at *
  rw [hour_val, abs_le] at h1
  have hn' : (n : ℚ) < 2 ^ 63 := by exact_mod_cast hn
  have h2 : x.val < 2 ^ 50 := by
    have h2 := h1.2
    linarith
  have hd := x.den_pos
  unfold Dbl.val at h2
  rw [div_lt_iff₀ hd] at h2
  have h3 : x.num < 2 ^ 50 * x.den := by exact_mod_cast h2
  unfold Dbl.round
  have := x.den_pos'
  rw [Nat.div_lt_iff_lt_mul (by omega)]
  omega

/-- C54 on a journal: the matches the statistics command makes are those of spending the incomes of the transactions, day by day in date
order, on their expenses, day by day in date order. -/
theorem C54_of_journal [Unicode] (e : Env) (ho : ∀ l, (e.mapOrder l).Perm l) (sortDates : List Date → List Date) (hs : SortsDates sortDates)
    (fs : FileSystem) (maxOpen : Nat) (bytes : List UInt8) (path : Str) (s : Stats) (hr : runParse fs maxOpen bytes path e.statsHandlers {} = .ok s) :
    let ts := e.picked (delivered fs maxOpen bytes path)
    ∃ incomeDays expenseDays : List Date,
      (DaysSorted incomeDays ∧ ∀ d, d ∈ incomeDays ↔ dayPostings e.filters incomeID ts d ≠ []) ∧
      (DaysSorted expenseDays ∧ ∀ d, d ∈ expenseDays ↔ dayPostings e.filters expensesID ts d ≠ []) ∧
      let income := fun d => (- valueOf (dayPostings e.filters incomeID ts d)).toInt
      let expense := fun d => (valueOf (dayPostings e.filters expensesID ts d)).toInt
      (∀ d ∈ incomeDays, 0 ≤ income d) → (∀ d ∈ expenseDays, 0 < expense d) →
        s.ages sortDates = spending income expense incomeDays expenseDays := by
  intro ts
  have hst : StatsOf e.filters ts s := C53_statistics e ho fs maxOpen bytes path s hr
  have hday : ∀ top d, dayPostings e.filters top ts d ≠ [] → d.Real := by
    intro top d hd
    unfold dayPostings at hd
    obtain ⟨p, hp⟩ := List.exists_mem_of_ne_nil _ hd
    obtain ⟨tf, htf, _⟩ := List.mem_flatMap.1 hp
    rw [List.mem_filter] at htf
    have := htf.2
    simp only [decide_eq_true_eq] at this
    rw [← this]
    exact (picked_real e htf.1).1
  obtain ⟨i1, i2⟩ := keys_sorted hs hst.income.2.1 (fun d hd => hday _ d ((hst.income.2.2 d).1 hd))
  obtain ⟨x1, x2⟩ := keys_sorted hs hst.expense.2.1 (fun d hd => hday _ d ((hst.expense.2.2 d).1 hd))
  refine ⟨_, _, ⟨i1, fun d => (i2 d).trans (hst.income.2.2 d)⟩, ⟨x1, fun d => (x2 d).trans (hst.expense.2.2 d)⟩, ?_⟩
  intro income expense hin hex
  have fi : (fun d => (s.income.get d).toInt) = income := by funext d; rw [hst.income.1]
  have fe : (fun d => (s.expense.get d).toInt) = expense := by funext d; rw [hst.expense.1]
  have gi : ∀ d, (s.income.get d).toInt = income d := fun d => congrFun fi d
  have ge : ∀ d, (s.expense.get d).toInt = expense d := fun d => congrFun fe d
  obtain ⟨_, k, _⟩ := C54_first_in_first_out s.income s.expense _ _ i1 (fun d hd => by rw [gi]; exact hin d hd)
    (fun d hd => by rw [ge]; exact (hex d hd).le)
  have k := k (fun d hd => by rw [ge]; exact hex d hd)
  rw [fi, fe] at k
  exact k

/-- The figures that the statistics command prints for a journal. -/
theorem stats_figures [Unicode] (e : Env) (ho : ∀ l, (e.mapOrder l).Perm l) (humanize : Date → Str)
    (order : List Str → List Str) (hf : ∀ l, (order l).Perm l) (sortDates : List Date → List Date) (hs : SortsDates sortDates)
    (fs : FileSystem) (maxOpen : Nat) (bytes : List UInt8) (path : Str) (s : Stats) (hr : runParse fs maxOpen bytes path e.statsHandlers {} = .ok s) :
    let ts := e.picked (delivered fs maxOpen bytes path)
    ts ≠ [] → ∃ age : Nat, (ageOfMoney (averageAge (s.ages sortDates))).format0 = natDigits age ∧
      let f : Figures := ⟨order s.files, s.first, s.last, s.days, s.count, perDay s.count s.days, s.accounts.length, s.payees.length, age⟩
      FiguresOf e.filters ts f ∧ statsReport humanize (order s.files) (averageAge (s.ages sortDates)) s = (f.lines humanize).flatMap (· ++ str "\n") := by
  intro ts hts
  have hst : StatsOf e.filters ts s := C53_statistics e ho fs maxOpen bytes path s hr
  have hc : s.count ≠ 0 := by rw [hst.count]; simpa using hts
  obtain ⟨age, a1, a2⟩ := C71_age_days (averageAge (s.ages sortDates))
  refine ⟨age, a1, ?_, ?_⟩
  · have hfl : (∀ tf ∈ ts, ¬ tf.1.date.isZero) → s.first.dayNumber ≤ s.last.dayNumber := by
      intro hz
      obtain ⟨⟨u, hu, huf⟩, _⟩ := hst.first hz hts
      rw [← huf]
      exact (hst.last hz hts).2 u hu
    refine ⟨⟨(hf _).nodup_iff.2 hst.files.1, fun a => (hf _).mem_iff.trans (hst.files.2 a)⟩, fun hz => hst.first hz hts,
      fun hz => hst.last hz hts, fun hz => C69_period_shown_partial s (hfl hz), hst.count, ?_, fun hd => if_pos hd,
      ⟨s.accounts, hst.accounts.1, hst.accounts.2, rfl⟩, ⟨s.payees, hst.payees.1, hst.payees.2, rfl⟩, ?_, ?_⟩
    · intro hd hb
      exact C70_per_day_partial s.count s.days hd (days_bound s) hb
    · obtain ⟨iks, eks, d1, d2, d3⟩ := C54_of_journal e ho sortDates hs fs maxOpen bytes path s hr
      refine ⟨iks, eks, d1, d2, ?_⟩
      intro income expense ages hin hex hb
      rw [d3 hin hex, C64_age_average_exact ages hb] at a2
      exact a2
    · intro hz
      have hd := C69_period_shown_partial s (hfl hz)
      have hday : ∀ top d, dayPostings e.filters top ts d ≠ [] → s.first.dayNumber ≤ d.dayNumber ∧ d.dayNumber ≤ s.last.dayNumber := by
        intro top d h
        obtain ⟨p, hp⟩ := List.exists_mem_of_ne_nil _ h
        obtain ⟨tf, htf, _⟩ := List.mem_flatMap.1 hp
        have htf := List.mem_filter.1 htf
        rw [← of_decide_eq_true htf.2]
        exact ⟨(hst.first hz hts).2 tf htf.1, (hst.last hz hts).2 tf htf.1⟩
      have hages : ∀ a ∈ s.ages sortDates, |(a.1.dayNumber - a.2.dayNumber) * nsPerDay| ≤ (s.last.dayNumber - s.first.dayNumber) * nsPerDay := by
        intro a ha
        rcases ageOuter_mem _ _ _ _ _ a ha with h | ⟨h1, h2⟩
        · cases h
        · have k1 := hday _ _ ((hst.expense.2.2 _).1 ((hs _).1.mem_iff.1 h1))
          have k2 := hday _ _ ((hst.income.2.2 _).1 ((hs _).1.mem_iff.1 h2))
          unfold nsPerDay
          rw [abs_le]
          omega
      have hav := averageAge_le (by have := hfl hz; unfold nsPerDay; omega) hages
      have hlt := BitVec.toInt_lt (x := averageAge (s.ages sortDates))
      generalize (averageAge (s.ages sortDates)).toInt = z at a2 hav hlt
      unfold nsPerDay at *
      rw [abs_le] at a2 hav
      show age ≤ s.days
      omega
  · unfold statsReport
    rw [if_neg hc, a1]
    have : s.files.length = (order s.files).length := (hf _).length_eq.symm
    rw [this]
    simp [Figures.lines, ago, List.flatMap_append, List.flatMap_map, List.append_assoc, str]

/-- What the statistics command prints for a journal. -/
theorem C72_statistics_report [Unicode] (e : Env) (ho : ∀ l, (e.mapOrder l).Perm l) (humanize : Date → Str)
    (order : List Str → List Str) (hf : ∀ l, (order l).Perm l) (sortDates : List Date → List Date) (hs : SortsDates sortDates)
    (fs : FileSystem) (maxOpen : Nat) (bytes : List UInt8) (path : Str) (text : Str)
    (h : statsCmd e humanize order sortDates fs maxOpen bytes path = .ok text) :
    let ts := e.picked (delivered fs maxOpen bytes path)
    if ts = [] then text = str "No transactions matched arguments.\n"
    else ∃ f, FiguresOf e.filters ts f ∧ text = (f.lines humanize).flatMap (· ++ str "\n") := by
  intro ts
  unfold statsCmd at h
  cases hr : runParse fs maxOpen bytes path e.statsHandlers {} with
  | error x => rw [hr] at h; cases h
  | ok s =>
    rw [hr] at h
    have ht : statsReport humanize (order s.files) (averageAge (s.ages sortDates)) s = text := by
      simpa [Except.map] using h
    have hst : StatsOf e.filters ts s := C53_statistics e ho fs maxOpen bytes path s hr
    rw [← ht]
    by_cases hts : ts = []
    · rw [if_pos hts]
      unfold statsReport
      rw [if_pos (by rw [hst.count, hts]; rfl)]
    · rw [if_neg hts]
      obtain ⟨age, _, h1, h2⟩ := stats_figures e ho humanize order hf sortDates hs fs maxOpen bytes path s hr hts
      exact ⟨_, h1, h2⟩

/-- A report: income on the first, spent on the fourth and on the fifth. -/
example :
    letI := asciiUnicode
    let j := utf8 "2020-01-01 x\n  A  10\n  Income:A\n\n2020-01-04 y\n  Expenses:B  2\n  A\n\n2020-01-05 x\n  Expenses:B  3\n  A\n"
    (statsCmd {} (fun _ => str "then") id (List.insertionSort fun a b => a.dayNumber ≤ b.dayNumber) noFiles 1 j (str "f")).toOption =
      some (str "Transactions found in 1 files:\n  f\nFirst transaction:\t2020-01-01 (then)\nLast transaction:\t2020-01-05 (then)\nTime period:\t\t4 days\nTransactions:\t\t3 (0.8 per day)\nUnique accounts:\t3\nUnique payees:\t\t2\nAge of money:\t\t4 days\n") := by
  decide +kernel

/-- The matches made for that journal: both expenses are met from the income of the first. -/
example :
    letI := asciiUnicode
    let j := utf8 "2020-01-01 x\n  A  10\n  Income:A\n\n2020-01-04 y\n  Expenses:B  2\n  A\n\n2020-01-05 x\n  Expenses:B  3\n  A\n"
    ((runParse noFiles 1 j (str "f") (Env.statsHandlers {}) {}).toOption.map fun s => s.ages (List.insertionSort fun a b => a.dayNumber ≤ b.dayNumber)) =
      some [(⟨2020, 1, 4⟩, ⟨2020, 1, 1⟩), (⟨2020, 1, 5⟩, ⟨2020, 1, 1⟩)] := by
  decide +kernel

/-- Dates can be sorted. -/
example : SortsDates (List.insertionSort fun a b => a.dayNumber ≤ b.dayNumber) := by
  intro l
  have t : Std.Total fun a b : Date => a.dayNumber ≤ b.dayNumber := ⟨fun a b => le_total _ _⟩
  have r : IsTrans Date fun a b : Date => a.dayNumber ≤ b.dayNumber := ⟨fun a b c => le_trans⟩
  exact ⟨List.perm_insertionSort _ l, List.pairwise_insertionSort _ l⟩

end Gledger
