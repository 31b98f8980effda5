import Verif.Props.Dates
import Verif.Props.Transactions

set_option maxRecDepth 100000

namespace Gledger

/-! ### C46 --begin is inclusive and --end is exclusive (false) -/

/-- With the local zone five hours west of UTC, a transaction dated on the begin date is left out. -/
theorem C46_date_range_false :
    ¬ ∀ (e : Env) (b n t : Date), e.current = false → parseSmartDate e.nowYear e.beginDate = .ok b →
      parseSmartDate e.nowYear e.endDate = .ok n → t.Real →
      (∀ b n, e.offset b = e.offset n) → (-nsPerDay < e.offset b ∧ e.offset b < nsPerDay) →
      (e.withinDateRange { date := t } = .ok true ↔ ¬ t.Earlier b ∧ t.Earlier n) := by
  intro h
  have := h { beginDate := str "2020-01-02", endDate := str "2020-01-03", offset := fun _ => -5 * 3600 * 1000000000 }
    ⟨2020, 1, 2⟩ ⟨2020, 1, 3⟩ ⟨2020, 1, 2⟩ rfl (by decide) (by decide) (by decide) (fun _ _ => rfl) (by decide)
  revert this
  decide

/-- The days of year 1 and later have numbers from zero. -/
theorem year_one {d : Date} (hd : d.Real) (hy : 1 ≤ d.year) : 0 ≤ d.dayNumber := by
  have hnl : ¬ d.dayNumber < Date.zero.dayNumber := by
    rw [dayNumber_lt_iff hd (by decide)]
    rintro (h | ⟨_, h | ⟨_, h⟩⟩)
    · simp [Date.zero] at h; omega
    · have := hd.month.1; simp [Date.zero] at h; omega
    · have := hd.1; simp [Date.zero] at h; omega
  have : Date.zero.dayNumber = 0 := by decide
  omega

/-- What is meant by the two flags, either of which may be absent (`none`). -/
def InRange (b n : Option Date) (t : Date) : Prop := (∀ d ∈ b, ¬ t.Earlier d) ∧ (∀ d ∈ n, t.Earlier d)

/-- The day a flag names, if it is given. -/
def Env.Flag (e : Env) (flag : Str) (d : Option Date) : Prop :=
  (flag = [] ∧ d = none) ∨ (flag ≠ [] ∧ ∃ x, d = some x ∧ x.Real ∧ parseSmartDate e.nowYear flag = .ok x)

theorem flag_bound (e : Env) {flag : Str} {d : Option Date} (h : e.Flag flag d) (hc : e.current = false) :
    e.bound flag = .ok ((d.map e.localInstant).getD 0) := by
  unfold Env.bound
  rcases h with ⟨rfl, rfl⟩ | ⟨hne, x, rfl, _, hp⟩
  · rw [if_neg (by simp)]
    rfl
  · rw [if_pos ⟨List.length_pos_of_ne_nil hne, hc⟩, hp]
    rfl

/-- Exactly the days of year 1 and later have numbers from zero. -/
theorem year_one_iff {d : Date} (hd : d.Real) : 0 ≤ d.dayNumber ↔ 1 ≤ d.year := by
  refine ⟨fun h => ?_, year_one hd⟩
  by_contra hy
  have hl : d.dayNumber < Date.zero.dayNumber := by
    rw [dayNumber_lt_iff hd (by decide)]
    exact Or.inl (by simp [Date.zero]; omega)
  have : Date.zero.dayNumber = 0 := by decide
  omega

/-- What holds, in any zone less than a day from UTC: the days from the begin date, inclusive, to the end date, exclusive, if the date of the
flag begins at or east of UTC; west of UTC the begin date itself is left out and the end date itself is included. Without a begin
date the days before year 1 are left out, and the end date 0001-01-01, in UTC, is taken for no end date.
Missing: the two flags as they are meant, for which it is false. -/
theorem C46_days_partial (e : Env) (b n : Option Date) (t : Transaction) (hc : e.current = false)
    (hb : e.Flag e.beginDate b) (hn : e.Flag e.endDate n) (ht : t.date.Real)
    (ho : ∀ d, -nsPerDay < e.offset d ∧ e.offset d < nsPerDay) :
    ∃ x, e.withinDateRange t = .ok x ∧ (x = true ↔ (b = none → 1 ≤ t.date.year) ∧
      (∀ d ∈ b, if 0 ≤ e.offset d then ¬ t.date.Earlier d else d.Earlier t.date) ∧
      ∀ d ∈ n, (d = Date.zero ∧ e.offset d = 0) ∨ if 0 ≤ e.offset d then t.date.Earlier d else ¬ d.Earlier t.date) := by
  have hday : nsPerDay = 86400000000000 := by decide
  refine ⟨(t.date.instant = (b.map e.localInstant).getD 0 || (b.map e.localInstant).getD 0 < t.date.instant) &&
      ((n.map e.localInstant).getD 0 = 0 || t.date.instant < (n.map e.localInstant).getD 0), ?_, ?_⟩
  · unfold Env.withinDateRange
    rw [flag_bound e hb hc, flag_bound e hn hc]
    simp only [hc, Bool.false_eq_true, if_false]
  · rw [Bool.and_eq_true, ← and_assoc]
    refine and_congr ?_ ?_
    · rcases hb with ⟨_, rfl⟩ | ⟨_, x, rfl, hx, _⟩
      · simp only [Option.mem_def, reduceCtorEq, false_implies, implies_true, and_true, true_implies, Bool.or_eq_true, decide_eq_true_eq, Option.map_none,
          Option.getD_none]
        rw [← year_one_iff ht]
        unfold Date.instant
        rw [hday]
        omega
      · simp only [Option.mem_def, Option.some.injEq, forall_eq', Bool.or_eq_true, decide_eq_true_eq, Option.map_some, Option.getD_some, reduceCtorEq,
          false_implies, true_and]
        obtain ⟨h1, h2⟩ := ho x
        rw [← dayNumber_lt_iff ht hx, ← dayNumber_lt_iff hx ht]
        unfold Env.localInstant Date.instant
        rw [hday] at *
        split <;> omega
    · rcases hn with ⟨_, rfl⟩ | ⟨_, x, rfl, hx, _⟩
      · simp
      · simp only [Option.mem_def, Option.some.injEq, forall_eq', Bool.or_eq_true, decide_eq_true_eq, Option.map_some, Option.getD_some]
        obtain ⟨h1, h2⟩ := ho x
        have hz : x = Date.zero ↔ x.dayNumber = 0 := by
          have h0 : Date.zero.dayNumber = 0 := by decide
          exact ⟨fun h => by rw [h, h0], fun h => dayNumber_inj hx (by decide) (h.trans h0.symm)⟩
        rw [← dayNumber_lt_iff ht hx, ← dayNumber_lt_iff hx ht, hz]
        unfold Env.localInstant Date.instant
        rw [hday] at *
        split <;> omega

/-- As meant: if the local zone is at or east of UTC, the transactions of years 1 on are selected by calendar day: from the begin date,
inclusive, to the end date, exclusive. The end date 0001-01-01 is excluded. Missing: zones west of UTC, for which it is false. -/
theorem C46_date_range_partial (e : Env) (b n : Option Date) (t : Transaction) (hc : e.current = false)
    (hb : e.Flag e.beginDate b) (hn : e.Flag e.endDate n) (ht : t.date.Real) (hy : 1 ≤ t.date.year)
    (ho : ∀ d, 0 ≤ e.offset d ∧ e.offset d < nsPerDay) (hz : n ≠ some Date.zero) :
    ∃ x, e.withinDateRange t = .ok x ∧ (x = true ↔ InRange b n t.date) := by
  have hpos : 0 < nsPerDay := by decide
  obtain ⟨x, h1, h2⟩ := C46_days_partial e b n t hc hb hn ht fun d => ⟨by have := (ho d).1; omega, (ho d).2⟩
  refine ⟨x, h1, h2.trans ?_⟩
  rw [and_iff_right fun _ => hy]
  refine and_congr (forall₂_congr fun d hd => by rw [if_pos (ho d).1]) (forall₂_congr fun d hd => ?_)
  rw [if_pos (ho d).1, or_iff_right]
  rintro ⟨rfl, _⟩
  exact hz hd

/-- What holds instead west of UTC: the begin date itself is left out and the end date itself is included. -/
theorem C46_west_partial (e : Env) (b n : Option Date) (t : Transaction) (hc : e.current = false)
    (hb : e.Flag e.beginDate b) (hn : e.Flag e.endDate n) (ht : t.date.Real) (hy : 1 ≤ t.date.year)
    (ho : ∀ d, -nsPerDay < e.offset d ∧ e.offset d < 0) :
    ∃ x, e.withinDateRange t = .ok x ∧ (x = true ↔ (∀ d ∈ b, d.Earlier t.date) ∧ ∀ d ∈ n, ¬ d.Earlier t.date) := by
  have hpos : 0 < nsPerDay := by decide
  obtain ⟨x, h1, h2⟩ := C46_days_partial e b n t hc hb hn ht fun d => ⟨(ho d).1, by have := (ho d).2; omega⟩
  refine ⟨x, h1, h2.trans ?_⟩
  rw [and_iff_right fun _ => hy]
  refine and_congr (forall₂_congr fun d _ => by rw [if_neg (by have := (ho d).2; omega)]) (forall₂_congr fun d _ => ?_)
  have := (ho d).2
  rw [if_neg (by omega), or_iff_right]
  rintro ⟨_, h⟩
  omega

/-- The Azores, where the zone is an hour west of UTC in winter and in UTC in summer: from 1 January (which is left out) to 1 July (also). -/
example :
    let e : Env := { beginDate := str "2020-01-01", endDate := str "2020-07-01", offset := fun d => if 4 ≤ d.month ∧ d.month ≤ 10 then 0 else -3600 * 1000000000 }
    [(⟨2020, 1, 1⟩ : Date), ⟨2020, 1, 2⟩, ⟨2020, 6, 30⟩, ⟨2020, 7, 1⟩].map (fun d => e.withinDateRange { date := d } matches .ok true) =
      [false, true, true, false] := by decide

/-- New York, from 2 to 3 January: only the third is included. -/
example :
    let e : Env := { beginDate := str "2020-01-02", endDate := str "2020-01-03", offset := fun _ => -5 * 3600 * 1000000000 }
    [(⟨2020, 1, 1⟩ : Date), ⟨2020, 1, 2⟩, ⟨2020, 1, 3⟩, ⟨2020, 1, 4⟩].map (fun d => e.withinDateRange { date := d } matches .ok true) =
      [false, false, true, false] := by decide

/-- Hypotheses met: one hour east of UTC, both flags. -/
example :
    let e : Env := { beginDate := str "2020", endDate := str "2020-02", offset := fun _ => 3600 * 1000000000 }
    e.current = false ∧ parseSmartDate e.nowYear e.beginDate = .ok ⟨2020, 1, 1⟩ ∧
    parseSmartDate e.nowYear e.endDate = .ok ⟨2020, 2, 1⟩ ∧ (⟨2020, 1, 1⟩ : Date).Real ∧ (⟨2020, 2, 1⟩ : Date).Real ∧
    e.withinDateRange { date := ⟨2020, 1, 1⟩ } = .ok true ∧ e.withinDateRange { date := ⟨2020, 2, 1⟩ } = .ok false := by decide

/-! ### C47 --current includes exactly the transactions up to today (false) -/

/-- A transaction dated tomorrow is included (in UTC, at noon of the day 2020-01-01). -/
theorem C47_current_false :
    ¬ ∀ (e : Env) (now : Int) (today t : Date), e.current = true → today.Real → t.Real →
      today.instant ≤ now → now < today.instant + nsPerDay → e.tomorrow = now + nsPerDay →
      (e.withinDateRange { date := t } = .ok true ↔ ¬ today.Earlier t) := by
  intro h
  have := h { current := true, tomorrow := (⟨2020, 1, 2⟩ : Date).instant + 12 * 3600 * 1000000000 }
    ((⟨2020, 1, 1⟩ : Date).instant + 12 * 3600 * 1000000000) ⟨2020, 1, 1⟩ ⟨2020, 1, 2⟩ rfl
    (by decide) (by decide) (by decide) (by decide) (by decide)
  revert this
  decide

/-- What holds: the local clock shows the same time of day again on the (UTC) day `day`; included are exactly the transactions dated at or before that day, or
before it if this is its very beginning. The days before year 1 are left out. Missing: the exclusion of tomorrow's transactions, which is false. -/
theorem C47_current_partial (e : Env) (day : Date) (t : Transaction) (hc : e.current = true) (hd : day.Real) (hdy : 1 ≤ day.year)
    (ht : t.date.Real) (h0 : e.tomorrow ≠ 0) (h1 : day.instant ≤ e.tomorrow) (h2 : e.tomorrow < day.instant + nsPerDay) :
    ∃ x, e.withinDateRange t = .ok x ∧
      (x = true ↔ 1 ≤ t.date.year ∧ if e.tomorrow = day.instant then t.date.Earlier day else ¬ day.Earlier t.date) := by
  have hday : nsPerDay = 86400000000000 := by decide
  rw [← year_one_iff ht]
  have hb : ∀ flag, e.bound flag = .ok 0 := by
    intro flag
    unfold Env.bound
    rw [if_neg (by simp [hc])]
  have hT : 0 ≤ day.dayNumber := year_one hd hdy
  refine ⟨(t.date.instant = 0 || (0 : Int) < t.date.instant) &&
      (e.tomorrow = 0 || t.date.instant < e.tomorrow), ?_, ?_⟩
  · unfold Env.withinDateRange
    rw [hb, hb]
    simp only [hc, if_true]
  · rw [← dayNumber_lt_iff hd ht, ← dayNumber_lt_iff ht hd, Bool.and_eq_true, Bool.or_eq_true, Bool.or_eq_true]
    simp only [decide_eq_true_eq]
    unfold Date.instant at *
    simp only [hday] at h1 h2 ⊢
    split <;> omega

/-- The same by the day on which the program runs, if the next 24 hours are a day by the local clock: at any moment of the (UTC) day `today` but its very beginning,
included are exactly the transactions dated at or before the day after `today`, i.e. one day too many; at the very beginning of the day, exactly those up to
`today`. -/
theorem C47_today_partial (e : Env) (now : Int) (today : Date) (t : Transaction) (hc : e.current = true) (hd : today.Real)
    (hdy : 1 ≤ today.year) (ht : t.date.Real) (h1 : today.instant ≤ now) (h2 : now < today.instant + nsPerDay) (hn : e.tomorrow = now + nsPerDay) :
    ∃ x, e.withinDateRange t = .ok x ∧
      (now = today.instant → (x = true ↔ 1 ≤ t.date.year ∧ ¬ today.Earlier t.date)) ∧
      (now ≠ today.instant → (x = true ↔ 1 ≤ t.date.year ∧ ¬ today.next.Earlier t.date)) := by
  have hday : nsPerDay = 86400000000000 := by decide
  obtain ⟨hr, hnext⟩ := dayNumber_next hd
  have hT : 0 ≤ today.dayNumber := year_one hd hdy
  have hin : today.next.instant = today.instant + nsPerDay := by unfold Date.instant; rw [hnext, hday]; omega
  have hy : 1 ≤ today.next.year := (year_one_iff hr).1 (by rw [hnext]; omega)
  obtain ⟨x, k1, k2⟩ := C47_current_partial e today.next t hc hr hy ht (by unfold Date.instant at *; simp only [hday] at *; omega) (by omega) (by omega)
  refine ⟨x, k1, fun h => ?_, fun h => ?_⟩
  · rw [if_pos (by omega)] at k2
    rw [k2, ← dayNumber_lt_iff ht hr, ← dayNumber_lt_iff hd ht, hnext]
    constructor <;> rintro ⟨h, h'⟩ <;> exact ⟨h, by omega⟩
  · rw [if_neg (by omega)] at k2
    exact k2

/-- Hypotheses met: noon. -/
example : let e : Env := { current := true, tomorrow := (⟨2020, 1, 2⟩ : Date).instant + 12 * 3600 * 1000000000 }
    let now := (⟨2020, 1, 1⟩ : Date).instant + 12 * 3600 * 1000000000
    e.current = true ∧ (⟨2020, 1, 1⟩ : Date).instant ≤ now ∧ now < (⟨2020, 1, 1⟩ : Date).instant + nsPerDay ∧ e.tomorrow = now + nsPerDay ∧
    (⟨2020, 1, 2⟩ : Date).instant ≤ e.tomorrow ∧ e.tomorrow < (⟨2020, 1, 2⟩ : Date).instant + nsPerDay ∧
    e.withinDateRange { date := ⟨2020, 1, 2⟩ } = .ok true ∧ e.withinDateRange { date := ⟨2020, 1, 3⟩ } = .ok false := by decide

/-- London, half past midnight on the day on which the clocks are put back (23:30 of the day before in Greenwich): the local clock shows half past midnight again
after 25 hours, two days later in Greenwich. -/
example : let e : Env := { current := true, tomorrow := (⟨2020, 10, 26⟩ : Date).instant + 1800 * 1000000000 }
    e.tomorrow = (⟨2020, 10, 24⟩ : Date).instant + (23 * 3600 + 1800) * 1000000000 + 25 * 3600 * 1000000000 ∧
    e.withinDateRange { date := ⟨2020, 10, 26⟩ } = .ok true ∧ e.withinDateRange { date := ⟨2020, 10, 27⟩ } = .ok false := by decide

/-! ### C59 Months are normalised to their first day -/

/-- The key of a day's month is the first of that month, a day of the calendar, which lies day-1 days before; and two days
have the same key exactly when their years and months agree. -/
theorem C59_month_keys (a b : Date) (ha : a.Real) (hb : b.Real) :
    normaliseToMonth a = ⟨a.year, a.month, 1⟩ ∧ (normaliseToMonth a).Real ∧
    (normaliseToMonth a).dayNumber = a.dayNumber - (a.day - 1) ∧
    (normaliseToMonth a = normaliseToMonth b ↔ a.year = b.year ∧ a.month = b.month) := by
  have hk : ∀ d : Date, d.Real → normaliseToMonth d = ⟨d.year, d.month, 1⟩ := by
    intro d hd
    have := hd.1
    simp only [normaliseToMonth, Date.mk.injEq, true_and]
    omega
  have ha1 := ha.1
  refine ⟨hk a ha, ?_, ?_, ?_⟩
  · rw [hk a ha]
    exact ⟨le_rfl, le_trans ha.1 ha.2⟩
  · rw [hk a ha]
    simp only [Date.dayNumber]
    omega
  · rw [hk a ha, hk b hb]
    simp

example : (⟨2020, 2, 29⟩ : Date).Real ∧ normaliseToMonth ⟨2020, 2, 29⟩ = ⟨2020, 2, 1⟩ := by decide

/-! ### C60 An unreadable period is rejected (false) -/

/-- The file "~ monthly" with a posting parses, and delivers a budget for the zero period. -/
theorem C60_period_rejected_false :
    ¬ ∀ (U : Unicode) (period : Str), (∀ d, ¬ WrittenYM '-' period d) →
      @failureOf _ U noFiles recorder 1 (utf8 "~ " ++ encode period ++ utf8 "\n  A  1\n") (str "f") [] ≠ none := by
  intro h
  refine h asciiUnicode (str "monthly") ?_ (by decide)
  rintro d ⟨y, m, n, e, _, hy, _⟩
  obtain ⟨a, as, rfl⟩ := List.exists_cons_of_ne_nil (show y ≠ [] by rintro rfl; have := hy.1; simp at this)
  have : str "monthly" = 'm' :: str "onthly" := by decide
  rw [this] at e
  simp only [List.cons_append, List.cons.injEq] at e
  have := hy.2.1 a (by simp)
  rw [← e.1] at this
  exact absurd this (by decide)

/-- What holds: a period written YYYY-MM is read as that month; every other text is read as the zero period, i.e. as the
month 0001-01. Missing: the rejection. -/
theorem C60_period_read_partial (s : Str) :
    (∀ d, WrittenYM '-' s d → d.Real → parsePeriod s = { startDate := d, endDate := d, interval := .none }) ∧
    ((∀ d, d.Real → ¬ WrittenYM '-' s d) → parsePeriod s = {}) := by
  unfold parsePeriod
  constructor
  · intro d h hr
    rw [(parseYM_iff '-' s d).2 ⟨h, hr⟩]
  · intro h
    cases hp : parseYM '-' s with
    | none => rfl
    | some d => exact absurd ((parseYM_iff '-' s d).1 hp).1 (h d ((parseYM_iff '-' s d).1 hp).2)

example : parsePeriod (str "2020-07") = { startDate := ⟨2020, 7, 1⟩, endDate := ⟨2020, 7, 1⟩ } ∧
    parsePeriod (str "2020-13") = {} := by decide

end Gledger
