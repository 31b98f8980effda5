import Verif.Spec.Calendar
import Verif.Lemmas.Numbers
import Mathlib.Tactic.IntervalCases

/-! The calendar of package time is the Gregorian calendar, and its texts. -/

namespace Gledger

theorem isLeap_iff (y : Int) : isLeap y = true ↔ LeapYear y := by
  unfold isLeap LeapYear
  simp only [Bool.and_eq_true, decide_eq_true_eq, Bool.or_eq_true, ne_eq]
  omega

theorem daysIn_eq (y : Int) {m : Nat} (h : 1 ≤ m ∧ m ≤ 12) : daysIn m y = monthLength y m := by
  obtain ⟨h1, h2⟩ := h
  unfold daysIn monthLength monthLengths
  interval_cases m <;> simp [isLeap_iff]

theorem monthLength_pos {y : Int} {m : Nat} (h : 1 ≤ monthLength y m) : 1 ≤ m ∧ m ≤ 12 := by
  unfold monthLength at h
  split at h
  · omega
  · refine ⟨by omega, ?_⟩
    by_contra hm
    have : (monthLengths y)[m - 1]? = none := by
      rw [List.getElem?_eq_none_iff]
      simp only [monthLengths, List.length_cons, List.length_nil]
      omega
    rw [List.getD_eq_getElem?_getD, this] at h
    simp at h

theorem Date.Real.month {d : Date} (h : d.Real) : 1 ≤ d.month ∧ d.month ≤ 12 := by
  obtain ⟨h1, h2⟩ := h
  exact monthLength_pos (by omega : 1 ≤ monthLength d.year d.month)

theorem Date.Real.daysIn {d : Date} (h : d.Real) : 1 ≤ d.day ∧ d.day ≤ Gledger.daysIn d.month d.year := by
  rw [daysIn_eq _ h.month]
  exact h

theorem real_iff (y : Int) (m d : Nat) : (⟨y, m, d⟩ : Date).Real ↔ 1 ≤ m ∧ m ≤ 12 ∧ 1 ≤ d ∧ d ≤ daysIn m y := by
  constructor
  · intro h
    exact ⟨h.month.1, h.month.2, h.daysIn.1, h.daysIn.2⟩
  · rintro ⟨h1, h2, h3, h4⟩
    rw [daysIn_eq _ ⟨h1, h2⟩] at h4
    exact ⟨h3, h4⟩

/-! ### Fixed width fields -/

theorem takeYear_written {s y : Str} {n : Nat} (h : WrittenIn 4 y n) : takeYear (y ++ s) = some (n, s) := by
  obtain ⟨hl, hd, rfl⟩ := h
  match y, hl with
  | [a, b, c, d], _ =>
    simp only [List.cons_append, List.nil_append, takeYear]
    rw [if_pos]
    · simp only [decimalValue, List.foldl_cons, List.foldl_nil, digitVal_eq, Option.some.injEq, Prod.mk.injEq, and_true]
      ring
    · simp only [Bool.and_eq_true, isDigit_iff]
      exact ⟨⟨⟨hd a (by simp), hd b (by simp)⟩, hd c (by simp)⟩, hd d (by simp)⟩

theorem takeYear_some {s t : Str} {n : Nat} (h : takeYear s = some (n, t)) : ∃ y, s = y ++ t ∧ WrittenIn 4 y n := by
  match s with
  | [] | [_] | [_, _] | [_, _, _] => simp [takeYear] at h
  | a :: b :: c :: d :: rest =>
    rw [takeYear] at h
    split at h
    · rename_i hd
      simp only [Bool.and_eq_true, isDigit_iff] at hd
      simp only [Option.some.injEq, Prod.mk.injEq] at h
      obtain ⟨h1, rfl⟩ := h
      refine ⟨[a, b, c, d], rfl, rfl, ?_, ?_⟩
      · intro x hx
        simp only [List.mem_cons, List.not_mem_nil, or_false] at hx
        rcases hx with rfl | rfl | rfl | rfl
        · exact hd.1.1.1
        · exact hd.1.1.2
        · exact hd.1.2
        · exact hd.2
      · rw [← h1]
        simp only [decimalValue, List.foldl_cons, List.foldl_nil, digitVal_eq]
        ring
    · cases h

theorem takeNum2_written {s m : Str} {n : Nat} (h : WrittenIn 2 m n) : takeNum2 (m ++ s) = some (n, s) := by
  obtain ⟨hl, hd, rfl⟩ := h
  match m, hl with
  | [a, b], _ =>
    simp only [List.cons_append, List.nil_append, takeNum2]
    rw [if_pos]
    · simp only [decimalValue, List.foldl_cons, List.foldl_nil, digitVal_eq, Option.some.injEq, Prod.mk.injEq, and_true]
      ring
    · simp only [Bool.and_eq_true, isDigit_iff]
      exact ⟨hd a (by simp), hd b (by simp)⟩

theorem takeNum2_some {s t : Str} {n : Nat} (h : takeNum2 s = some (n, t)) : ∃ m, s = m ++ t ∧ WrittenIn 2 m n := by
  match s with
  | [] | [_] => simp [takeNum2] at h
  | a :: b :: rest =>
    rw [takeNum2] at h
    split at h
    · rename_i hd
      simp only [Bool.and_eq_true, isDigit_iff] at hd
      simp only [Option.some.injEq, Prod.mk.injEq] at h
      obtain ⟨h1, rfl⟩ := h
      refine ⟨[a, b], rfl, rfl, ?_, ?_⟩
      · intro x hx
        simp only [List.mem_cons, List.not_mem_nil, or_false] at hx
        rcases hx with rfl | rfl
        · exact hd.1
        · exact hd.2
      · rw [← h1]
        simp only [decimalValue, List.foldl_cons, List.foldl_nil, digitVal_eq]
        ring
    · cases h

theorem takeLit_self (sep : Char) (s : Str) : takeLit sep (sep :: s) = some s := by simp [takeLit]

theorem takeLit_some {sep : Char} {s t : Str} (h : takeLit sep s = some t) : s = sep :: t := by
  cases s with
  | nil => cases h
  | cons c cs =>
    rw [takeLit] at h
    split at h
    · rename_i hc; cases h; rw [hc]
    · cases h

theorem parseYMD_iff (sep : Char) (s : Str) (d : Date) : parseYMD sep s = some d ↔ WrittenYMD sep s d ∧ d.Real := by
  constructor
  · intro h
    unfold parseYMD at h
    simp only [Option.bind_eq_some_iff, Prod.exists] at h
    obtain ⟨n, s1, h1, s2, h2, m, s3, h3, s4, h4, dd, s5, h5, h6⟩ := h
    split at h6
    · rename_i hr
      obtain ⟨h7, h8, h9, h10, rfl⟩ := hr
      simp only [Option.some.injEq] at h6
      subst h6
      obtain ⟨y, rfl, hy⟩ := takeYear_some h1
      rw [takeLit_some h2] at *
      obtain ⟨mm, rfl, hm⟩ := takeNum2_some h3
      rw [takeLit_some h4] at *
      obtain ⟨ddd, rfl, hdd⟩ := takeNum2_some h5
      exact ⟨⟨y, mm, ddd, n, by simp, rfl, hy, hm, hdd⟩, (real_iff _ _ _).2 ⟨h7, h8, h9, h10⟩⟩
    · cases h6
  · rintro ⟨⟨y, m, dd, n, rfl, hn, hy, hm, hdd⟩, hr⟩
    obtain ⟨yy, mm, d⟩ := d
    simp only at hn hm hdd
    subst hn
    obtain ⟨h7, h8, h9, h10⟩ := (real_iff _ _ _).1 hr
    have hdd' := takeNum2_written (s := []) hdd
    rw [List.append_nil] at hdd'
    unfold parseYMD
    rw [takeYear_written hy]
    simp only [Option.bind_some, takeLit_self, takeNum2_written hm, hdd']
    rw [if_pos ⟨h7, h8, h9, h10, trivial⟩]

theorem parseYM_iff (sep : Char) (s : Str) (d : Date) : parseYM sep s = some d ↔ WrittenYM sep s d ∧ d.Real := by
  constructor
  · intro h
    unfold parseYM at h
    simp only [Option.bind_eq_some_iff, Prod.exists] at h
    obtain ⟨n, s1, h1, s2, h2, m, s3, h3, h6⟩ := h
    split at h6
    · rename_i hr
      obtain ⟨h7, h8, rfl⟩ := hr
      simp only [Option.some.injEq] at h6
      subst h6
      obtain ⟨y, rfl, hy⟩ := takeYear_some h1
      rw [takeLit_some h2] at *
      obtain ⟨mm, rfl, hm⟩ := takeNum2_some h3
      refine ⟨⟨y, mm, n, by simp, rfl, hy, hm, rfl⟩, (real_iff _ _ _).2 ⟨h7, h8, le_rfl, ?_⟩⟩
      unfold daysIn
      repeat' split
      all_goals omega
    · cases h6
  · rintro ⟨⟨y, m, n, rfl, hn, hy, hm, hdd⟩, hr⟩
    obtain ⟨yy, mm, d⟩ := d
    simp only at hn hm hdd
    subst hn hdd
    obtain ⟨h7, h8, h9, h10⟩ := (real_iff _ _ _).1 hr
    have hm' := takeNum2_written (s := []) hm
    rw [List.append_nil] at hm'
    unfold parseYM
    rw [takeYear_written hy]
    simp only [Option.bind_some, takeLit_self, hm']
    rw [if_pos ⟨h7, h8, trivial⟩]

theorem pad2_written {n : Nat} (h : n < 100) : WrittenIn 2 (pad2 n) n := ⟨rfl, (pad2_digits n).2, pad2_value h⟩

theorem pad4_written {n : Nat} (h : n < 10000) : WrittenIn 4 (pad4 n) n := by
  refine ⟨rfl, ?_, ?_⟩
  · intro c hc
    simp only [pad4, List.mem_cons, List.not_mem_nil, or_false] at hc
    rcases hc with rfl | rfl | rfl | rfl <;> exact digit_ofNat (by omega)
  · simp only [decimalValue, pad4, List.foldl_cons, List.foldl_nil]
    rw [ofNat_digit (by omega), ofNat_digit (by omega), ofNat_digit (by omega), ofNat_digit (by omega)]
    have : '0'.toNat = 48 := rfl
    omega

theorem monthLength_le (y : Int) (m : Nat) : monthLength y m ≤ 31 := by
  by_cases h : 1 ≤ m ∧ m ≤ 12
  · rw [← daysIn_eq y h]
    unfold daysIn
    repeat' split
    all_goals omega
  · by_contra hc
    exact h (monthLength_pos (y := y) (m := m) (by omega))

/-- The formatted date is the date written YYYY-MM-DD. -/
theorem format_written {d : Date} (h : d.Real) (h0 : 0 ≤ d.year) (h1 : d.year ≤ 9999) : WrittenYMD '-' d.format d := by
  obtain ⟨h2, h3⟩ := h.month
  obtain ⟨h4, h5⟩ := h
  have := monthLength_le d.year d.month
  exact ⟨pad4 d.year.toNat, pad2 d.month, pad2 d.day, d.year.toNat, by simp [Date.format], by omega,
    pad4_written (by omega), pad2_written (by omega), pad2_written (by omega)⟩

/-! ### Day numbers -/

theorem daysBeforeYear_succ (y : Int) : daysBeforeYear (y + 1) = daysBeforeYear y + (if LeapYear y then 366 else 365) := by
  unfold daysBeforeYear
  by_cases h : LeapYear y
  · rw [if_pos h]
    unfold LeapYear at h
    omega
  · rw [if_neg h]
    unfold LeapYear at h
    omega

theorem daysBeforeYear_mono {y z : Int} (h : y < z) : daysBeforeYear (y + 1) ≤ daysBeforeYear z := by
  obtain ⟨n, rfl⟩ : ∃ n : Nat, z = y + 1 + n := ⟨(z - y - 1).toNat, by omega⟩
  clear h
  induction n with
  | zero => simp
  | succ n ih =>
    have := daysBeforeYear_succ (y + 1 + n)
    have e : y + 1 + ((n + 1 : Nat) : Int) = y + 1 + n + 1 := by push_cast; ring
    rw [e, this]
    split <;> omega

theorem daysBeforeMonth_succ (y : Int) {m : Nat} (h : 1 ≤ m ∧ m ≤ 12) :
    daysBeforeMonth (m + 1) y = daysBeforeMonth m y + monthLength y m := by
  obtain ⟨k, rfl⟩ : ∃ k, m = k + 1 := ⟨m - 1, by omega⟩
  rw [daysBeforeMonth, daysIn_eq y h]

theorem daysBeforeMonth_mono (y : Int) {m k : Nat} (hm : 1 ≤ m) (h : m < k) (hk : k ≤ 13) :
    daysBeforeMonth (m + 1) y ≤ daysBeforeMonth k y := by
  obtain ⟨n, rfl⟩ : ∃ n : Nat, k = m + 1 + n := ⟨k - m - 1, by omega⟩
  clear h
  induction n with
  | zero => simp
  | succ n ih =>
    have := daysBeforeMonth_succ y (m := m + 1 + n) ⟨by omega, by omega⟩
    rw [show m + 1 + (n + 1) = m + 1 + n + 1 by omega, this]
    have := ih (by omega)
    omega

theorem daysBeforeMonth_year (y : Int) : (daysBeforeMonth 13 y : Int) = if LeapYear y then 366 else 365 := by
  simp only [daysBeforeMonth, daysIn]
  by_cases h : LeapYear y
  · simp [h, (isLeap_iff y).2 h]
  · have : isLeap y = false := by
      rw [← Bool.not_eq_true, isLeap_iff]; exact h
    simp [h, this]

/-- Days are numbered in calendar order. -/
theorem dayNumber_lt {a b : Date} (ha : a.Real) (hb : b.Real) (h : a.Earlier b) : a.dayNumber < b.dayNumber := by
  obtain ⟨m1, m2⟩ := ha.month
  obtain ⟨k1, k2⟩ := hb.month
  have ea := daysBeforeMonth_succ a.year ha.month
  have hb1 := hb.1
  have ha1 := ha.1
  have ha2 := ha.2
  unfold Date.dayNumber
  rcases h with h | ⟨h, h' | ⟨h', h''⟩⟩
  · have h1 := daysBeforeYear_mono h
    rw [daysBeforeYear_succ, ← daysBeforeMonth_year] at h1
    have h2 := daysBeforeMonth_mono a.year (m := a.month) (k := 13) m1 (by omega) (by omega)
    omega
  · have h2 := daysBeforeMonth_mono a.year (m := a.month) (k := b.month) m1 h' (by omega)
    rw [← h]
    omega
  · rw [← h, ← h']
    omega

theorem earlier_total (a b : Date) : a.Earlier b ∨ a = b ∨ b.Earlier a := by
  obtain ⟨y, m, d⟩ := a
  obtain ⟨y', m', d'⟩ := b
  simp only [Date.Earlier, Date.mk.injEq]
  omega

theorem dayNumber_lt_iff {a b : Date} (ha : a.Real) (hb : b.Real) : a.dayNumber < b.dayNumber ↔ a.Earlier b := by
  constructor
  · intro h
    rcases earlier_total a b with h1 | rfl | h1
    · exact h1
    · omega
    · have := dayNumber_lt hb ha h1
      omega
  · exact dayNumber_lt ha hb

theorem dayNumber_inj {a b : Date} (ha : a.Real) (hb : b.Real) (h : a.dayNumber = b.dayNumber) : a = b := by
  rcases earlier_total a b with h1 | rfl | h1
  · have := dayNumber_lt ha hb h1; omega
  · rfl
  · have := dayNumber_lt hb ha h1; omega

/-- The next day of the calendar has the next number. -/
theorem dayNumber_next {d : Date} (h : d.Real) : d.next.Real ∧ d.next.dayNumber = d.dayNumber + 1 := by
  obtain ⟨m1, m2⟩ := h.month
  have h1 := h.1
  have h2 := h.2
  have hs := daysBeforeMonth_succ d.year h.month
  unfold Date.next
  by_cases hd : d.day < monthLength d.year d.month
  · rw [if_pos hd]
    refine ⟨⟨by simp, by simp only; omega⟩, ?_⟩
    simp only [Date.dayNumber]
    omega
  · rw [if_neg hd]
    by_cases hm : d.month < 12
    · rw [if_pos hm]
      refine ⟨(real_iff _ _ _).2 ⟨by omega, by omega, le_rfl, ?_⟩, ?_⟩
      · unfold daysIn
        repeat' split
        all_goals omega
      · simp only [Date.dayNumber]
        omega
    · rw [if_neg hm]
      refine ⟨(real_iff _ _ _).2 ⟨le_rfl, by omega, le_rfl, by simp [daysIn]⟩, ?_⟩
      simp only [Date.dayNumber]
      have : d.month = 12 := by omega
      simp only [this] at *
      rw [daysBeforeYear_succ, ← daysBeforeMonth_year]
      have : daysBeforeMonth 1 (d.year + 1) = 0 := rfl
      have : daysBeforeMonth (12 + 1) d.year = daysBeforeMonth 13 d.year := rfl
      omega

end Gledger
