import Verif.Lemmas.Calendar
import Verif.Lemmas.Log
import Verif.Model.Cmd

set_option maxRecDepth 100000

namespace Gledger

/-! ### C10 Transaction dates are accepted exactly when they are real calendar days -/

/-- A date text is accepted exactly when it is a day of the calendar written YYYYsMMsDD with one of the three separators
used twice, and then the stored date is that day; every other text of at least five characters is rejected with an error;
and shorter texts crash. -/
theorem C10_dates_accepted (s : Str) :
    (∀ d, parseDate s = .ok d ↔ ∃ sep, Separator sep ∧ WrittenYMD sep s d ∧ d.Real) ∧
    (5 ≤ s.length → (∃ d, parseDate s = .ok d) ∨ ∃ e, parseDate s = .error (.err e)) ∧
    (s.length < 5 → parseDate s = .error (.panic .indexOutOfRange)) := by
  refine ⟨fun d => ?_, fun h => ?_, fun h => ?_⟩
  · constructor
    · intro h
      unfold parseDate at h
      split at h
      · cases h
      · rename_i c hc
        split at h
        · rename_i hsep
          cases hp : parseYMD c s with
          | none => rw [hp] at h; cases h
          | some d' =>
            rw [hp] at h
            simp only [Except.ok.injEq] at h
            subst h
            exact ⟨c, hsep, (parseYMD_iff c s d').1 hp⟩
        · cases h
    · rintro ⟨sep, hsep, hw, hr⟩
      have h4 : s[4]? = some sep := by
        obtain ⟨y, m, dd, n, rfl, _, hy, _⟩ := hw
        rw [List.getElem?_append_right (by rw [hy.1]), hy.1]
        rfl
      unfold parseDate
      rw [h4]
      simp only
      rw [if_pos (show sep = '-' ∨ sep = '.' ∨ sep = '/' from hsep), (parseYMD_iff sep s d).2 ⟨hw, hr⟩]
  · obtain ⟨c, hc⟩ : ∃ c, s[4]? = some c := ⟨s[4], by rw [List.getElem?_eq_getElem]⟩
    unfold parseDate
    rw [hc]
    simp only
    split
    · split
      · exact Or.inl ⟨_, rfl⟩
      · exact Or.inr ⟨_, rfl⟩
    · exact Or.inr ⟨_, rfl⟩
  · unfold parseDate
    rw [List.getElem?_eq_none (by omega)]

/-- A leap day is accepted, the day after 28 February of a common year is not, nor are mixed separators. -/
example : parseDate (str "2020.02.29") = .ok ⟨2020, 2, 29⟩ ∧ (⟨2020, 2, 29⟩ : Date).Real ∧
    parseDate (str "2021/02/29") = .error (.err (.timeParse (str "2021/02/29"))) ∧
    parseDate (str "2020-01.02") = .error (.err (.timeParse (str "2020-01.02"))) ∧
    parseDate (str "2020") = .error (.panic .indexOutOfRange) := by decide

/-! ### C11 Printed dates parse back to the same day -/

/-- Reading a formatted date gives the date back. -/
theorem C11_format_parses_back (d : Date) (hr : d.Real) (h0 : 0 ≤ d.year) (h1 : d.year ≤ 9999) :
    parseDate d.format = .ok d :=
  ((C10_dates_accepted d.format).1 d).2 ⟨'-', Or.inl rfl, format_written hr h0 h1, hr⟩

/-- Comparing the instants of two days of the calendar compares year, month and day; and every day begins one day after
the day before it. -/
theorem C11_comparison_is_calendar_order (a b : Date) (ha : a.Real) (hb : b.Real) :
    (a.before b = true ↔ a.Earlier b) ∧ (a.after b = true ↔ b.Earlier a) ∧ (a.dayNumber = b.dayNumber ↔ a = b) ∧
      a.next.dayNumber = a.dayNumber + 1 := by
  refine ⟨?_, ?_, ⟨dayNumber_inj ha hb, fun h => by rw [h]⟩, (dayNumber_next ha).2⟩
  · rw [Date.before, decide_eq_true_eq, dayNumber_lt_iff ha hb]
  · rw [Date.after, decide_eq_true_eq, dayNumber_lt_iff hb ha]

example : (⟨1900, 2, 28⟩ : Date).Real ∧ (⟨1900, 2, 28⟩ : Date).next = ⟨1900, 3, 1⟩ ∧ (⟨2000, 2, 28⟩ : Date).next = ⟨2000, 2, 29⟩ ∧
    (⟨1999, 12, 31⟩ : Date).next = ⟨2000, 1, 1⟩ ∧ (⟨7, 1, 9⟩ : Date).format = str "0007-01-09" := by decide

/-! ### C48 Smart dates name the first day of the period they spell (false) -/

/-- The texts a user may write for a day, and the day meant; `year` is the current year. -/
def SmartDate (year : Nat) (s : Str) (d : Date) : Prop :=
  d.Real ∧ (WrittenY s d ∨ ∃ sep, Separator sep ∧ (WrittenYM sep s d ∨ WrittenMD year sep s d ∨ WrittenYMD sep s d))

/-- A year of three digits with a sign before it. -/
def SignedYear (s : Str) (d : Date) : Prop :=
  ∃ (g : Sign) (w : Str) (n : Nat), g ≠ .absent ∧ s = g.text ++ w ∧ WrittenIn 3 w n ∧ d = ⟨g.apply n, 1, 1⟩

/-- The year -202 is accepted. -/
theorem C48_smart_dates_false :
    ¬ ∀ (year : Nat) (s : Str) (d : Date), 1000 ≤ year → year ≤ 9999 → parseSmartDate year s = .ok d → SmartDate year s d := by
  intro h
  obtain ⟨_, h1⟩ := h 2020 (str "-202") ⟨-202, 1, 1⟩ (by decide) (by decide) (by decide)
  rcases h1 with ⟨n, _, h2⟩ | ⟨sep, _, h2 | h2 | h2⟩
  · simp at h2
  · obtain ⟨_, _, n, _, h2, _⟩ := h2; simp at h2
  · obtain ⟨_, _, _, h2, _⟩ := h2; simp at h2
  · obtain ⟨_, _, _, n, _, h2, _⟩ := h2; simp at h2

theorem split_no_sep {sep : Char} {a : Str} (h : sep ∉ a) : split sep a = [a] := by
  induction a with
  | nil => rfl
  | cons c cs ih =>
    rw [split, if_neg (fun e => h (by simp [e])), ih fun hm => h (by simp [hm])]

theorem split_sep {sep : Char} {a : Str} (b : Str) (h : sep ∉ a) : split sep (a ++ sep :: b) = a :: split sep b := by
  induction a with
  | nil => simp [split]
  | cons c cs ih =>
    rw [List.cons_append, split, if_neg (fun e => h (by simp [e])), ih fun hm => h (by simp [hm])]

theorem sep_not_digit {sep c : Char} (hs : Separator sep) (hc : Digit c) : c ≠ sep := by
  rintro rfl
  rcases hs with rfl | rfl | rfl <;> exact absurd hc (by decide)

theorem WrittenIn.no_sep {k n : Nat} {s : Str} (h : WrittenIn k s n) {sep : Char} (hs : Separator sep) : sep ∉ s :=
  fun hm => sep_not_digit hs (h.2.1 _ hm) rfl

theorem WrittenIn.utf8Len {k n : Nat} {s : Str} (h : WrittenIn k s n) : utf8Len s = k := by
  obtain ⟨hl, hd, hv⟩ := h
  rw [← hl]
  clear hl hv
  induction s with
  | nil => rfl
  | cons c cs ih =>
    have hc : c.utf8Size = 1 := by
      have h1 := (hd c (by simp)).2
      have e : '9'.toNat = 57 := rfl
      have : c.val.toNat ≤ 57 := by rw [e] at h1; exact h1
      rw [Char.utf8Size_eq_one_iff, UInt32.le_iff_toNat_le]
      simpa using by omega
    have := ih fun x hx => hd x (by simp [hx])
    simp only [Gledger.utf8Len, List.map_cons, List.sum_cons, List.length_cons] at this ⊢
    omega

theorem utf8Len_digits {s : Str} (h : ∀ c ∈ s, Digit c) : utf8Len s = s.length :=
  WrittenIn.utf8Len (k := s.length) (n := decimalValue s) ⟨rfl, h, rfl⟩

theorem natDigits_four {n : Nat} (h0 : 1000 ≤ n) (h1 : n ≤ 9999) : WrittenIn 4 (natDigits n) n := by
  refine ⟨?_, (natDigits_digits n).2, natDigits_value n⟩
  have hle : decimalValue (natDigits n) < 10 ^ (natDigits n).length := decimalValue_lt (natDigits_digits n).2
  rw [natDigits_value] at hle
  have h4 : 4 ≤ (natDigits n).length := by
    by_contra hc
    have : 10 ^ (natDigits n).length ≤ 10 ^ 3 := Nat.pow_le_pow_right (by norm_num) (by omega)
    omega
  have aux : ∀ f n k, n ≤ f → 0 < k → n < 10 ^ k → (natDigitsAux f n).length ≤ k := by
    intro f
    induction f with
    | zero => intro n k _ hk _; simp [natDigitsAux]; omega
    | succ f ih =>
      intro n k hn hk hlt
      rw [natDigitsAux]
      by_cases h10 : n < 10
      · rw [if_pos h10]; simp; omega
      · rw [if_neg h10]
        obtain ⟨j, rfl⟩ : ∃ j, k = j + 1 := ⟨k - 1, by omega⟩
        have hj : 0 < j := by
          rcases Nat.eq_zero_or_pos j with rfl | hj
          · simp at hlt; omega
          · exact hj
        have := ih (n / 10) j (by omega) hj (by rw [pow_succ] at hlt; omega)
        simp only [List.length_append, List.length_singleton]
        omega
  have := aux n n 4 le_rfl (by norm_num) (by omega)
  unfold natDigits at *
  omega

theorem append_left_cancel_len {a b c d : Str} (h : a ++ b = c ++ d) (hl : a.length = c.length) : a = c ∧ b = d :=
  List.append_inj h hl

theorem small_toInt {v : Int} (h0 : -10000 < v) (h1 : v < 10000) : (BitVec.ofInt 64 v).toInt = v := by
  rw [BitVec.toInt_ofInt, Int.bmod_def]
  norm_num
  omega

theorem parseYear_iff (s : Str) (d : Date) : parseYear s = .ok d ↔ WrittenY s d ∨ SignedYear s d := by
  constructor
  · intro h
    unfold parseYear at h
    split at h
    · cases h
    · rename_i hl
      rw [not_not] at hl
      cases hp : parseInt s with
      | none => rw [hp] at h; cases h
      | some y =>
        rw [hp] at h
        simp only [Except.ok.injEq] at h
        obtain ⟨g, ds, rfl, hd⟩ := parseInt_shape hp
        rw [parseInt_text g hd] at hp
        split at hp
        · simp only [Option.some.injEq] at hp
          have hlt := decimalValue_lt hd.2
          have hlen : utf8Len (g.text ++ ds) = g.text.length + ds.length := by
            have : utf8Len (g.text ++ ds) = utf8Len g.text + utf8Len ds := by simp [utf8Len]
            rw [this, utf8Len_digits hd.2]
            cases g <;> rfl
          rw [hlen] at hl
          have hle : 10 ^ ds.length ≤ 10 ^ 4 := Nat.pow_le_pow_right (by decide) (by omega)
          have hb : -10000 < g.apply (decimalValue ds) ∧ g.apply (decimalValue ds) < 10000 := by
            cases g <;> simp only [Sign.apply] <;> omega
          rw [← hp, small_toInt hb.1 hb.2] at h
          cases g
          · exact Or.inl ⟨decimalValue ds, ⟨by simpa [Sign.text] using hl, hd.2, rfl⟩, h.symm⟩
          · exact Or.inr ⟨.plus, ds, decimalValue ds, by simp, rfl, ⟨by simp [Sign.text] at hl; omega, hd.2, rfl⟩, h.symm⟩
          · exact Or.inr ⟨.minus, ds, decimalValue ds, by simp, rfl, ⟨by simp [Sign.text] at hl; omega, hd.2, rfl⟩, h.symm⟩
        · cases hp
  · have key : ∀ (g : Sign) (ds : Str) (n : Nat), WrittenIn (4 - g.text.length) ds n → parseYear (g.text ++ ds) = .ok ⟨g.apply n, 1, 1⟩ := by
      intro g ds n hw
      have hd : Digits ds := ⟨by rintro rfl; have := hw.1; cases g <;> simp [Sign.text] at this, hw.2.1⟩
      have hlt := decimalValue_lt hw.2.1
      have hle : 10 ^ ds.length ≤ 10 ^ 4 := Nat.pow_le_pow_right (by decide) (by rw [hw.1]; omega)
      have hb : -10000 < g.apply n ∧ g.apply n < 10000 := by
        rw [← hw.2.2]
        cases g <;> simp only [Sign.apply] <;> omega
      have hp := parseInt_text g hd
      rw [hw.2.2, if_pos (show Int64Range (g.apply n) by constructor <;> omega)] at hp
      unfold parseYear
      rw [if_neg (by
        have : utf8Len (g.text ++ ds) = utf8Len g.text + utf8Len ds := by simp [utf8Len]
        rw [this, hw.utf8Len]
        cases g <;> decide), hp]
      simp only [small_toInt hb.1 hb.2]
    rintro (⟨n, hw, rfl⟩ | ⟨g, ds, n, hg, rfl, hw, rfl⟩)
    · exact key .absent s n hw
    · refine key g ds n ?_
      cases g
      · exact absurd rfl hg
      · exact hw
      · exact hw

theorem parseYear_written {s : Str} {d : Date} (h : WrittenY s d) : parseYear s = .ok d := (parseYear_iff s d).2 (Or.inl h)

theorem writtenY_real {s : Str} {d : Date} (h : WrittenY s d) : d.Real := by
  obtain ⟨n, _, rfl⟩ := h
  exact (real_iff _ _ _).2 ⟨le_rfl, by omega, le_rfl, by simp [daysIn]⟩

theorem signedYear_real {s : Str} {d : Date} (h : SignedYear s d) : d.Real := by
  obtain ⟨g, _, n, _, _, _, rfl⟩ := h
  exact (real_iff _ _ _).2 ⟨le_rfl, by omega, le_rfl, by simp [daysIn]⟩

theorem parseYear_smart (year : Nat) {s : Str} {d : Date} (h : parseYear s = .ok d) : SmartDate year s d ∨ SignedYear s d := by
  rcases (parseYear_iff s d).1 h with h | h
  · exact Or.inl ⟨writtenY_real h, Or.inl h⟩
  · exact Or.inr h

theorem parseMonthDay_iff {year : Nat} (h0 : 1000 ≤ year) (h1 : year ≤ 9999) (sep : Char) (s : Str) (d : Date) :
    parseMonthDay year s sep = .ok d ↔ WrittenMD year sep s d ∧ d.Real := by
  have hy := natDigits_four h0 h1
  have key : parseMonthDay year s sep = .ok d ↔ parseYMD sep (natDigits year ++ [sep] ++ s) = some d := by
    unfold parseMonthDay
    cases parseYMD sep (natDigits year ++ [sep] ++ s) <;> simp
  rw [key, parseYMD_iff]
  constructor
  · rintro ⟨⟨y, m, dd, n, e, h2, h3, h4, h5⟩, hr⟩
    rw [List.append_assoc] at e
    obtain ⟨e1, e2⟩ := List.append_inj e (by rw [hy.1, h3.1])
    simp only [List.cons_append, List.nil_append, List.cons.injEq, true_and] at e2
    refine ⟨⟨m, dd, e2, ?_, h4, h5⟩, hr⟩
    rw [h2, ← h3.2.2, ← e1, hy.2.2]
  · rintro ⟨⟨m, dd, rfl, h2, h4, h5⟩, hr⟩
    exact ⟨⟨natDigits year, m, dd, year, by simp, h2, hy, h4, h5⟩, hr⟩

theorem parseComponents_ok {year : Nat} (h0 : 1000 ≤ year) (h1 : year ≤ 9999) {sep : Char} (hsep : Separator sep) {s : Str} {d : Date}
    (h : parseComponents year s sep = .ok d) : SmartDate year s d ∨ SignedYear s d := by
  unfold parseComponents at h
  split at h
  · exact parseYear_smart year h
  · left
    split at h
    · unfold parseYearMonth at h
      cases hp : parseYM sep s with
      | none => rw [hp] at h; cases h
      | some d' =>
        rw [hp] at h
        cases h
        obtain ⟨hw, hr⟩ := (parseYM_iff sep s d).1 hp
        exact ⟨hr, Or.inr ⟨sep, hsep, Or.inl hw⟩⟩
    · obtain ⟨hw, hr⟩ := (parseMonthDay_iff h0 h1 sep s d).1 h
      exact ⟨hr, Or.inr ⟨sep, hsep, Or.inr (Or.inl hw)⟩⟩
  · left
    unfold parseYearMonthDay at h
    cases hp : parseYMD sep s with
    | none => rw [hp] at h; cases h
    | some d' =>
      rw [hp] at h
      cases h
      obtain ⟨hw, hr⟩ := (parseYMD_iff sep s d).1 hp
      exact ⟨hr, Or.inr ⟨sep, hsep, Or.inr (Or.inr hw)⟩⟩
  · cases h

theorem occurs_not_mem {c : Char} {s : Str} (h : c ∉ s) : occursAfterFirst c s = false := by
  cases s with
  | nil => rfl
  | cons a as =>
    simp only [occursAfterFirst, Bool.and_eq_false_iff]
    right
    simpa using fun hm => h (by simp [hm])

/-- A separator after a digit is found. -/
theorem occurs_sep {sep : Char} (hs : Separator sep) {k n : Nat} {y : Str} (hy : WrittenIn (k + 1) y n) (t : Str) :
    occursAfterFirst sep (y ++ sep :: t) = true := by
  obtain ⟨a, as, rfl⟩ := List.exists_cons_of_ne_nil (show y ≠ [] by rintro rfl; have := hy.1; simp at this)
  simp only [List.cons_append, occursAfterFirst, Bool.and_eq_true, decide_eq_true_eq]
  exact ⟨by simpa using sep_not_digit hs (hy.2.1 a (by simp)), by simp⟩

/-- Once a text uses only one separator, it is divided at it. -/
theorem smart_sep (year : Nat) {sep : Char} (hs : Separator sep) {s : Str} (h : occursAfterFirst sep s = true)
    (ho : ∀ c ∈ s, Digit c ∨ c = sep) : parseSmartDate year s = parseComponents year s sep := by
  have hn : ∀ c, Separator c → c ≠ sep → occursAfterFirst c s = false := by
    intro c hc hne
    refine occurs_not_mem fun hm => ?_
    rcases ho c hm with h1 | h1
    · exact sep_not_digit hc h1 rfl
    · exact hne h1
  unfold parseSmartDate
  rcases hs with rfl | rfl | rfl
  · rw [hn '/' (by decide) (by decide), hn '.' (by decide) (by decide), h]; rfl
  · rw [hn '/' (by decide) (by decide), h]; rfl
  · rw [h]; rfl

theorem smart_read {year : Nat} (h0 : 1000 ≤ year) (h1 : year ≤ 9999) {s : Str} {d : Date} (h : SmartDate year s d) :
    parseSmartDate year s = .ok d := by
  revert h
  rintro ⟨hr, hy | ⟨sep, hsep, h | h | h⟩⟩
  · have hn : ∀ c, Separator c → occursAfterFirst c s = false := by
      obtain ⟨n, hw, _⟩ := hy
      exact fun c hc => occurs_not_mem (hw.no_sep hc)
    unfold parseSmartDate
    rw [hn '/' (by decide), hn '.' (by decide), hn '-' (by decide)]
    exact parseYear_written hy
  · have hp := (parseYM_iff sep s d).2 ⟨h, hr⟩
    obtain ⟨y, m, n, rfl, _, hy, hm, _⟩ := h
    rw [smart_sep year hsep (occurs_sep hsep hy m) (by
      intro c hc
      simp only [List.mem_append, List.mem_cons] at hc
      rcases hc with hc | hc | hc
      · exact Or.inl (hy.2.1 c hc)
      · exact Or.inr hc
      · exact Or.inl (hm.2.1 c hc))]
    unfold parseComponents
    rw [split_sep m (hy.no_sep hsep), split_no_sep (hm.no_sep hsep)]
    simp only [hy.utf8Len, if_true, parseYearMonth, hp]
  · have hp := (parseMonthDay_iff h0 h1 sep s d).2 ⟨h, hr⟩
    obtain ⟨m, dd, rfl, _, hm, hdd⟩ := h
    rw [smart_sep year hsep (occurs_sep hsep hm dd) (by
      intro c hc
      simp only [List.mem_append, List.mem_cons] at hc
      rcases hc with hc | hc | hc
      · exact Or.inl (hm.2.1 c hc)
      · exact Or.inr hc
      · exact Or.inl (hdd.2.1 c hc))]
    unfold parseComponents
    rw [split_sep dd (hm.no_sep hsep), split_no_sep (hdd.no_sep hsep)]
    simp only [hm.utf8Len, show ¬ (2 = 4) by decide, if_false, hp]
  · have hp := (parseYMD_iff sep s d).2 ⟨h, hr⟩
    obtain ⟨y, m, dd, n, rfl, _, hy, hm, hdd⟩ := h
    rw [smart_sep year hsep (occurs_sep hsep hy _) (by
      intro c hc
      simp only [List.mem_append, List.mem_cons] at hc
      rcases hc with hc | hc | hc | hc | hc
      · exact Or.inl (hy.2.1 c hc)
      · exact Or.inr hc
      · exact Or.inl (hm.2.1 c hc)
      · exact Or.inr hc
      · exact Or.inl (hdd.2.1 c hc))]
    unfold parseComponents
    rw [split_sep _ (hy.no_sep hsep), split_sep _ (hm.no_sep hsep), split_no_sep (hdd.no_sep hsep)]
    simp only [parseYearMonthDay, hp]

/-- What is accepted, exactly: the texts meant as smart dates, each read as the day it names; and years of three digits with a sign. -/
theorem C48_accepted (year : Nat) (h0 : 1000 ≤ year) (h1 : year ≤ 9999) (s : Str) (d : Date) :
    parseSmartDate year s = .ok d ↔ SmartDate year s d ∨ SignedYear s d := by
  refine ⟨fun h => ?_, ?_⟩
  · unfold parseSmartDate at h
    split at h
    · exact parseComponents_ok h0 h1 (Or.inr (Or.inr rfl)) h
    · split at h
      · exact parseComponents_ok h0 h1 (Or.inr (Or.inl rfl)) h
      · split at h
        · exact parseComponents_ok h0 h1 (Or.inl rfl) h
        · exact parseYear_smart year h
  rintro (h | h)
  · exact smart_read h0 h1 h
  · have hn : ∀ c, Separator c → occursAfterFirst c s = false := by
      obtain ⟨g, w, n, hg, rfl, hw, _⟩ := h
      intro c hc
      cases g
      · exact absurd rfl hg
      · refine occurs_not_mem fun hm => ?_
        simp only [Sign.text, List.cons_append, List.nil_append, List.mem_cons] at hm
        rcases hm with rfl | hm
        · revert hc; decide
        · exact hw.no_sep hc hm
      · simp only [Sign.text, List.cons_append, List.nil_append, occursAfterFirst, Bool.and_eq_false_iff]
        right
        simpa using hw.no_sep hc
    unfold parseSmartDate
    rw [hn '/' (by decide), hn '.' (by decide), hn '-' (by decide)]
    exact (parseYear_iff s d).2 (Or.inr h)

/-- What holds of the claim: every text meant as a smart date is read as the day it names; and a text that does not begin with a sign is
accepted only if it is one. Missing: texts beginning with a sign, some of which are accepted (`C48_accepted`). -/
theorem C48_smart_dates_partial (year : Nat) (h0 : 1000 ≤ year) (h1 : year ≤ 9999) (s : Str) (d : Date) :
    (SmartDate year s d → parseSmartDate year s = .ok d) ∧
    ((∀ c, s.head? = some c → c ≠ '+' ∧ c ≠ '-') → parseSmartDate year s = .ok d → SmartDate year s d) := by
  refine ⟨fun h => (C48_accepted year h0 h1 s d).2 (Or.inl h), fun hs h => ?_⟩
  rcases (C48_accepted year h0 h1 s d).1 h with h | ⟨g, w, n, hg, rfl, _⟩
  · exact h
  · cases g
    · exact absurd rfl hg
    · exact absurd rfl (hs '+' rfl).1
    · exact absurd rfl (hs '-' rfl).2

/-- Both kinds are met. -/
example : SmartDate 2020 (str "2020") ⟨2020, 1, 1⟩ ∧ SignedYear (str "+202") ⟨202, 1, 1⟩ ∧ SignedYear (str "-202") ⟨-202, 1, 1⟩ :=
  ⟨⟨by decide, Or.inl ⟨2020, by decide, rfl⟩⟩, ⟨.plus, str "202", 202, by decide, rfl, by decide, rfl⟩,
    ⟨.minus, str "202", 202, by decide, rfl, by decide, rfl⟩⟩

/-- One text of each form. -/
example : parseSmartDate 2026 (str "2020") = .ok ⟨2020, 1, 1⟩ ∧ parseSmartDate 2026 (str "2020-05") = .ok ⟨2020, 5, 1⟩ ∧
    parseSmartDate 2026 (str "05.17") = .ok ⟨2026, 5, 17⟩ ∧ parseSmartDate 2026 (str "2020/02/29") = .ok ⟨2020, 2, 29⟩ ∧
    parseSmartDate 2026 (str "02-29") = .error (.timeParse (str "02-29")) := by decide

end Gledger
