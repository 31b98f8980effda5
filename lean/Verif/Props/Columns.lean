/-
C146: the columns of reports line up.
-/
import Verif.Props.UnitFree
import Verif.Props.BudgetParts
import Verif.Props.AlikeToo
import Verif.Props.SumsOnly
import Verif.Props.Exact

namespace Gledger

/-- A figure at the right of a column of twenty. -/
def FillsColumn (s : Str) : Prop := s.length = 20 ∧ ∃ c, s.getLast? = some c ∧ isDigit c = true

/-- A balance in columns: figures twenty wide and two blanks before the names, and a rule and a total as wide as the figures. -/
def BalanceInColumns (text : Str) : Prop :=
  ∃ (rows : List (Str × Str)) (total : Str), text = joinLines (rows.map fun r => r.1 ++ [' ', ' '] ++ r.2) ++ ['\n'] ++ List.replicate 20 '-' ++ ['\n'] ++ total ++ ['\n'] ∧
    FillsColumn total ∧ ∀ r ∈ rows, FillsColumn r.1

/-- A line of the table of a month: 101 runes, with bars behind the name and behind each of the three figures. -/
def TableLine (l : Str) : Prop :=
  l.length = 101 ∧ ∀ i ∈ [31, 54, 77, 100], l[i]? = some '|'

/-- A line of the summary of a month: 53 runes, with a bar behind the label. -/
def SummaryLine (l : Str) : Prop := l.length = 53 ∧ l[31]? = some '|'

/-- A budget in columns: for each month its day and the time of day, five lines of a summary with a rule as wide as they are before the last, headings, a rule as wide as they are, and a line for
each category as wide as they are. -/
def BudgetInColumns (text : Str) : Prop :=
  ∃ months : List (Date × List Str × Str × Str × List Str), text = months.flatMap (fun x =>
      x.1.format ++ str " 00:00:00 +0000 UTC\n\n" ++ (x.2.1.flatMap (· ++ ['\n'])) ++ List.replicate 53 '-' ++ ['\n'] ++ x.2.2.1 ++ str "\n\n\n" ++ x.2.2.2.1 ++ ['\n'] ++ List.replicate 101 '-' ++ ['\n'] ++
        (x.2.2.2.2.flatMap (· ++ ['\n'])) ++ ['\n']) ∧
    ∀ x ∈ months, x.2.1.length = 4 ∧ (∀ l ∈ x.2.1, SummaryLine l) ∧ SummaryLine x.2.2.1 ∧ TableLine x.2.2.2.1 ∧ ∀ l ∈ x.2.2.2.2, TableLine l

theorem natDigitsAux_short : ∀ f n k, n ≤ f → n < 10 ^ (k + 1) → (natDigitsAux f n).length ≤ k + 1 := by
  intro f
  induction f with
  | zero => intro n k _ _; simp [natDigitsAux]
  | succ f ih =>
    intro n k h1 h2
    unfold natDigitsAux
    split
    · simp
    · rename_i h
      cases k with
      | zero => omega
      | succ k =>
        have := ih (n / 10) k (by omega) (by rw [pow_succ] at h2; omega)
        simp only [List.length_append, List.length_cons, List.length_nil]
        omega

theorem displayQuantity_short {q : I64} {k : Nat} (h0 : 3 ≤ k) (h1 : k ≤ 15) (h : q.toInt.natAbs < 10 ^ k) : (displayQuantity q).length ≤ k + 2 := by
  have hk : 10 ^ k ≤ 10 ^ 15 := Nat.pow_le_pow_right (by norm_num) h1
  unfold displayQuantity renderHundredths
  rw [hundredths_exact (by omega)]
  obtain ⟨j, rfl⟩ : ∃ j, k = j + 3 := ⟨k - 3, by omega⟩
  have h2 := natDigitsAux_short (q.toInt.natAbs / 100) (q.toInt.natAbs / 100) j le_rfl (by rw [pow_succ, pow_succ] at h; omega)
  have h3 : ∀ n, (pad2 n).length = 2 := fun _ => rfl
  have h4 : (if q.toInt < 0 then ['-'] else [] : Str).length ≤ 1 := by split <;> simp
  unfold natDigits
  simp only [List.length_append, h3, List.length_cons, List.length_nil]
  omega

theorem column_fills {c : Str} {q : I64} {k : Nat} (h0 : 3 ≤ k) (h1 : k ≤ 15) (h : q.toInt.natAbs < 10 ^ k) (hc : c.length + k ≤ 18) :
    FillsColumn (rightAligned 20 (c ++ displayQuantity q)) := by
  obtain ⟨x, hx, hd⟩ := displayQuantity_digit q
  refine ⟨?_, x, ?_, hd⟩
  · have := displayQuantity_short h0 h1 h
    unfold rightAligned
    simp only [List.length_append, List.length_replicate]
    omega
  · unfold rightAligned
    rw [List.getLast?_append, List.getLast?_append, hx]
    rfl

theorem turnover_perm {ps qs : List Posting} (h : ps.Perm qs) : turnover ps = turnover qs := (h.map _).sum_eq

theorem first_short {n : Nat} {ps : List Posting} (h : ∀ p ∈ ps, ∀ a, p.amount = some a → a.commodity.length ≤ n) : (firstCommodity ps).length ≤ n := by
  unfold firstCommodity
  cases hw : writtenCommodities ps with
  | nil => simp
  | cons c cs =>
    have hm : c ∈ writtenCommodities ps := by rw [hw]; simp
    obtain ⟨p, hp, hx⟩ := List.mem_filterMap.1 (List.mem_of_mem_filter hm)
    obtain ⟨a, ha, rfl⟩ := Option.map_eq_some_iff.1 hx
    exact h p hp a ha

/-- Balances of less than 10^k hundredths altogether, with commodities that leave room for them. -/
theorem C146_balances {showZero flatten collapse : Bool} {ps : List Posting} {text : Str} {k : Nat} (h0 : 3 ≤ k) (h1 : k ≤ 15) (h : turnover ps < 10 ^ k)
    (hc : ∀ p ∈ ps, ∀ a, p.amount = some a → a.commodity.length + k ≤ 18) (R : BalanceReport showZero flatten collapse ps text) : BalanceInColumns text := by
  have hrow : ∀ cs, FillsColumn (rightAligned 20 ((tally (below cs ps)).commodity ++ displayQuantity (tally (below cs ps)).quantity)) := fun cs => by
    refine column_fills (k := k) h0 h1 ?_ ?_
    · exact lt_of_le_of_lt ((natAbs_value (below cs ps)).trans (turnover_filter _ _)) h
    · have := first_short (n := 18 - k) (ps := below cs ps) fun p hp a ha => by
        have := hc p (List.mem_of_mem_filter hp) a ha
        omega
      show (firstCommodity (below cs ps)).length + k ≤ 18
      omega
  have htot : FillsColumn (rightAligned 20 (displayQuantity (tally ps).quantity)) := by
    have := column_fills (c := []) (q := (tally ps).quantity) (k := k) h0 h1 (lt_of_le_of_lt (natAbs_value ps) h) (by simp; omega)
    rwa [List.nil_append] at this
  have hfoot : footer (tally ps) = ['\n'] ++ List.replicate 20 '-' ++ ['\n'] ++ rightAligned 20 (displayQuantity (tally ps).quantity) ++ ['\n'] := by
    have e1 : str "\n--------------------\n" = ['\n'] ++ List.replicate 20 '-' ++ ['\n'] := by decide
    have e2 : str "\n" = ['\n'] := by decide
    unfold footer
    rw [e1, e2]
  have e3 : str "  " = [' ', ' '] := by decide
  have main : ∀ (L : List (List Str)) (f : List Str → Str), BalanceInColumns (joinLines (L.map fun cs => amountColumn (tally (below cs ps)) ++ f cs) ++ footer (tally ps)) := by
    intro L f
    refine ⟨L.map fun cs => (rightAligned 20 ((tally (below cs ps)).commodity ++ displayQuantity (tally (below cs ps)).quantity), f cs), _, ?_, htot, ?_⟩
    · rw [hfoot, List.map_map]
      simp only [amountColumn, e3, List.append_assoc]
      rfl
    · intro r hr
      obtain ⟨cs, _, rfl⟩ := List.mem_map.1 hr
      exact hrow cs
  unfold BalanceReport at R
  split at R
  · obtain ⟨L, _, _, rfl⟩ := R
    exact main L _
  · split at R
    · obtain ⟨L, one, _, _, _, rfl⟩ := R
      simpa only [List.append_assoc] using main L fun cs => List.replicate (2 * levelBy one cs) ' ' ++ joinPath (chainBy one cs)
    · obtain ⟨L, _, _, rfl⟩ := R
      simpa only [List.append_assoc] using main L fun cs => List.replicate (2 * (cs.length - 1)) ' ' ++ cs.getLastD []

/-! ### Budgets -/

theorem turnover_apart (es : List Filed) (f g : Filed → Bool) (hd : ∀ e, f e = true → g e = true → False) :
    turnover ((es.filter f).map Filed.posting) + turnover ((es.filter g).map Filed.posting) ≤ turnover (es.map Filed.posting) := by
  unfold turnover
  induction es with
  | nil => simp
  | cons e es ih =>
    rw [List.filter_cons, List.filter_cons]
    by_cases hf : f e = true <;> by_cases hg : g e = true
    · exact (hd e hf hg).elim
    all_goals
      simp only [hf, hg, if_true, if_false, List.map_cons, List.sum_cons, Bool.false_eq_true]
      omega

theorem worth_small (es : List Filed) : (worth es).toInt.natAbs ≤ turnover (es.map Filed.posting) := by
  have := natAbs_value (es.map Filed.posting)
  unfold valueOf at this
  rw [List.map_map] at this
  exact this

theorem bar_at {s t : Str} {i : Nat} (h : s.length = i) : (s ++ '|' :: t)[i]? = some '|' := by
  subst h
  simp

theorem table_line {n a b c : Str} (hn : n.length = 30) (ha : a.length = 20) (hb : b.length = 20) (hc : c.length = 20) :
    TableLine (n ++ [' ', '|', ' '] ++ a ++ [' ', '|', ' '] ++ b ++ [' ', '|', ' '] ++ c ++ [' ', '|']) := by
  refine ⟨by simp only [List.length_append, List.length_cons, List.length_nil]; omega, ?_⟩
  intro i hi
  simp only [List.mem_cons, List.not_mem_nil, or_false] at hi
  rcases hi with rfl | rfl | rfl | rfl
  · have e : n ++ [' ', '|', ' '] ++ a ++ [' ', '|', ' '] ++ b ++ [' ', '|', ' '] ++ c ++ [' ', '|'] =
        (n ++ [' ']) ++ '|' :: ([' '] ++ a ++ [' ', '|', ' '] ++ b ++ [' ', '|', ' '] ++ c ++ [' ', '|']) := by simp
    rw [e]
    exact bar_at (by simp [hn])
  · have e : n ++ [' ', '|', ' '] ++ a ++ [' ', '|', ' '] ++ b ++ [' ', '|', ' '] ++ c ++ [' ', '|'] =
        (n ++ [' ', '|', ' '] ++ a ++ [' ']) ++ '|' :: ([' '] ++ b ++ [' ', '|', ' '] ++ c ++ [' ', '|']) := by simp
    rw [e]
    exact bar_at (by simp [hn, ha])
  · have e : n ++ [' ', '|', ' '] ++ a ++ [' ', '|', ' '] ++ b ++ [' ', '|', ' '] ++ c ++ [' ', '|'] =
        (n ++ [' ', '|', ' '] ++ a ++ [' ', '|', ' '] ++ b ++ [' ']) ++ '|' :: ([' '] ++ c ++ [' ', '|']) := by simp
    rw [e]
    exact bar_at (by simp [hn, ha, hb])
  · have e : n ++ [' ', '|', ' '] ++ a ++ [' ', '|', ' '] ++ b ++ [' ', '|', ' '] ++ c ++ [' ', '|'] =
        (n ++ [' ', '|', ' '] ++ a ++ [' ', '|', ' '] ++ b ++ [' ', '|', ' '] ++ c ++ [' ']) ++ '|' :: [] := by simp
    rw [e]
    exact bar_at (by simp [hn, ha, hb, hc])

theorem summary_line {n a : Str} (hn : n.length = 30) (ha : a.length = 20) : SummaryLine (n ++ [' ', '|', ' '] ++ a) := by
  refine ⟨by simp only [List.length_append, List.length_cons, List.length_nil]; omega, ?_⟩
  have e : n ++ [' ', '|', ' '] ++ a = (n ++ [' ']) ++ '|' :: ([' '] ++ a) := by simp
  rw [e]
  exact bar_at (by simp [hn])

theorem category_short {n : Nat} {cs : List Str} {es : List Filed} (h : ∀ e ∈ es, ∀ a, e.posting.amount = some a → a.commodity.length ≤ n) : (categoryCommodity cs es).length ≤ n := by
  unfold categoryCommodity
  cases hl : (es.filter fun e => decide (e.category = some cs)).getLast? with
  | none => simp
  | some x =>
    cases ha : x.posting.amount with
    | none => simp [ha]
    | some a => simpa [ha] using h x (List.mem_of_mem_filter (List.mem_of_getLast? hl)) a ha

/-- Budgets of less than 10^k hundredths altogether, with commodities that leave room for them and names of at most 30 runes. -/
theorem C146_budgets {es : List Filed} {text : Str} {k : Nat} (h0 : 3 ≤ k) (h1 : k ≤ 15) (h : turnover (es.map Filed.posting) < 10 ^ k)
    (hc : ∀ e ∈ es, ∀ a, e.posting.amount = some a → a.commodity.length + k ≤ 18) (hn : ∀ e ∈ es, ∀ c ds, e.category = some (c :: ds) → c.length ≤ 30)
    (R : BudgetReport es text) : BudgetInColumns text := by
  obtain ⟨ms, ns, _, _, _, k1, e1⟩ := R
  have e2 : str " | " = [' ', '|', ' '] := by decide
  have e3 : str " |\n" = [' ', '|'] ++ ['\n'] := by decide
  have e4 : str "\n" = ['\n'] := by decide
  have hin : ∀ m : Date, turnover ((inMonth m.year m.month es).map Filed.posting) < 10 ^ k := fun m => by
    have := turnover_apart es (fun e => decide (e.date.year = m.year ∧ e.date.month = m.month)) (fun _ => false) (by simp)
    exact lt_of_le_of_lt (le_trans (Nat.le_add_right _ _) this) h
  have hcm : ∀ m : Date, ∀ e ∈ inMonth m.year m.month es, ∀ a, e.posting.amount = some a → a.commodity.length ≤ 18 - k := fun m e he a ha => by
    have := hc e (List.mem_of_mem_filter he) a ha
    omega
  refine ⟨ms.map fun m => (m, [rightAligned 30 (str "Funds") ++ [' ', '|', ' '] ++ rightAligned 20 ((incomeOf (inMonth m.year m.month es)).commodity ++ displayQuantity (incomeOf (inMonth m.year m.month es)).quantity),
      head4, head5, head6], head8, head11, (ns m).map fun c => leftAligned 30 c ++ [' ', '|', ' '] ++ rightAligned 20 (displayQuantity (- spent [c] (inMonth m.year m.month es))) ++ [' ', '|', ' '] ++
        rightAligned 20 (displayQuantity (budgeted [c] (inMonth m.year m.month es))) ++ [' ', '|', ' '] ++ rightAligned 20 (categoryCommodity [c] (inMonth m.year m.month es) ++
          displayQuantity (budgeted [c] (inMonth m.year m.month es) - spent [c] (inMonth m.year m.month es))) ++ [' ', '|']), ?_, ?_⟩
  · rw [e1, List.flatMap_map]
    refine flatMap_congr_mem fun m _ => ?_
    rw [summary_lines]
    have f1 : ((ns m).flatMap fun c => categoryLine c (inMonth m.year m.month es)) = ((ns m).map fun c => leftAligned 30 c ++ [' ', '|', ' '] ++ rightAligned 20 (displayQuantity (- spent [c] (inMonth m.year m.month es))) ++ [' ', '|', ' '] ++
        rightAligned 20 (displayQuantity (budgeted [c] (inMonth m.year m.month es))) ++ [' ', '|', ' '] ++ rightAligned 20 (categoryCommodity [c] (inMonth m.year m.month es) ++
          displayQuantity (budgeted [c] (inMonth m.year m.month es) - spent [c] (inMonth m.year m.month es))) ++ [' ', '|']).flatMap (· ++ ['\n']) := by
      rw [List.flatMap_map]
      refine flatMap_congr_mem fun c _ => ?_
      unfold categoryLine figures
      rw [e2, e3]
      simp only [List.flatMap_cons, List.flatMap_nil, List.append_assoc, List.append_nil]
    rw [f1]
    unfold summaryLines
    have g1 : str " 00:00:00 +0000 UTC\n\n" = str " 00:00:00 +0000 UTC" ++ ['\n'] ++ ['\n'] := by decide
    have g2 : str "\n\n\n" = ['\n'] ++ ['\n'] ++ ['\n'] := by decide
    have g3 : List.replicate 53 '-' = head7 := by decide
    have g4 : List.replicate 101 '-' = head12 := by decide
    rw [g1, g2, g3, g4, e2, e4]
    generalize List.flatMap _ (List.map _ (ns m)) = T
    generalize str " 00:00:00 +0000 UTC" = u
    generalize head4 = h4
    generalize head5 = h5
    generalize head6 = h6
    generalize head7 = h7
    generalize head8 = h8
    generalize head11 = h11
    generalize head12 = h12
    simp only [List.map_cons, List.map_nil, List.flatMap_cons, List.flatMap_nil, List.flatten_cons, List.flatten_nil, List.append_assoc, List.append_nil, List.nil_append]
  · intro x hx
    obtain ⟨m, hm, rfl⟩ := List.mem_map.1 hx
    have hs4 : SummaryLine head4 := ⟨by decide, by decide⟩
    have hs5 : SummaryLine head5 := ⟨by decide, by decide⟩
    have hs6 : SummaryLine head6 := ⟨by decide, by decide⟩
    have hs8 : SummaryLine head8 := ⟨by decide, by decide⟩
    have hs11 : TableLine head11 := ⟨by decide, by decide⟩
    refine ⟨rfl, ?_, hs8, hs11, ?_⟩
    · intro l hl
      simp only [List.mem_cons, List.not_mem_nil, or_false] at hl
      rcases hl with rfl | rfl | rfl | rfl
      · refine summary_line (by decide) (column_fills h0 h1 ?_ ?_).1
        · refine lt_of_le_of_lt ?_ (hin m)
          have := turnover_apart (inMonth m.year m.month es) (fun e => decide (e.type = .income)) (fun _ => false) (by simp)
          exact (natAbs_neg _).trans ((worth_small _).trans (le_trans (Nat.le_add_right _ _) this))
        · have := first_short (n := 18 - k) (ps := (((inMonth m.year m.month es).filter fun e => e.type = .income).map Filed.posting)) (by
            intro p hp a ha
            obtain ⟨e, he, rfl⟩ := List.mem_map.1 hp
            exact hcm m e (List.mem_of_mem_filter he) a ha)
          show (firstCommodity _).length + k ≤ 18
          omega
      · exact hs4
      · exact hs5
      · exact hs6
    · intro l hl
      obtain ⟨c, hcn, rfl⟩ := List.mem_map.1 hl
      have hlen : c.length ≤ 30 := by
        obtain ⟨e, he, ds, hd⟩ := ((k1 m hm).2 c).1 hcn
        exact hn e (List.mem_of_mem_filter he) c ds hd
      have ht := turnover_apart (inMonth m.year m.month es) (fun e => decide (e.type = .envelope ∧ e.Under [c])) (fun e => decide (e.type = .expense ∧ e.Under [c])) (by
        intro e q1 q2
        have q1 := (of_decide_eq_true q1).1
        have q2 := (of_decide_eq_true q2).1
        rw [q1] at q2
        cases q2)
      have w1 := worth_small ((inMonth m.year m.month es).filter fun e => e.type = .envelope ∧ e.Under [c])
      have w2 := worth_small ((inMonth m.year m.month es).filter fun e => e.type = .expense ∧ e.Under [c])
      have hm1 := hin m
      have b1 : (budgeted [c] (inMonth m.year m.month es)).toInt.natAbs < 10 ^ k := lt_of_le_of_lt (w1.trans (le_trans (Nat.le_add_right _ _) ht)) hm1
      have b2 : (- spent [c] (inMonth m.year m.month es)).toInt.natAbs < 10 ^ k := lt_of_le_of_lt ((natAbs_neg _).trans (w2.trans (le_trans (Nat.le_add_left _ _) ht))) hm1
      have b3 : (budgeted [c] (inMonth m.year m.month es) - spent [c] (inMonth m.year m.month es)).toInt.natAbs < 10 ^ k :=
        lt_of_le_of_lt ((natAbs_sub _ _).trans ((Nat.add_le_add w1 w2).trans ht)) hm1
      have p1 := (column_fills (c := []) h0 h1 b1 (by simp; omega)).1
      have p2 := (column_fills (c := []) h0 h1 b2 (by simp; omega)).1
      have p3 := (column_fills (c := categoryCommodity [c] (inMonth m.year m.month es)) h0 h1 b3 (by
        have := category_short (n := 18 - k) (cs := [c]) (hcm m)
        omega)).1
      rw [List.nil_append] at p1 p2
      exact table_line (by unfold leftAligned; simp only [List.length_append, List.length_replicate]; omega) p2 p1 p3

section
variable [Unicode] {m : Machine} {o : Options} {args : List Str} {bytes : List UInt8} {js : List (Meant × Str)}
  {filters : List Filter} {admits : Date → Bool} {path : Str}

/-- A run of `balance` in any form on any journal, with any arguments and date flags: the report behind the warnings is in columns if the magnitudes of what is asked for sum to less than 10^k hundredths, and no commodity
has more than 18 - k runes. -/
theorem C146_balance (g : Setting m o args bytes filters admits path) {pg : Page} (r : Reading m.fs m.lib m.maxOpen path bytes js (.ok pg)) (hs : ¬ Command.balance.Short filters admits (meanings js))
    {k : Nat} (h0 : 3 ≤ k) (h1 : k ≤ 15) (h : turnover ((asked admits (meanings js)).flatMap (selection filters)) < 10 ^ k)
    (hc : ∀ t ∈ asked admits (meanings js), ∀ p ∈ selection filters t, ∀ a, p.amount = some a → a.commodity.length + k ≤ 18) :
    ∃ W text, m.run o .balance args = ⟨W ++ text, .exit 0⟩ ∧ BalanceInColumns text ∧
      ∀ c, (∀ t ∈ asked admits (meanings js), ∀ p ∈ selection filters t, ∀ a, p.amount = some a → a.commodity = c) → W = [] := by
  obtain ⟨d1, d2, _⟩ := C99_parsed r
  obtain ⟨qss, text, q1, q2, q3⟩ := Heard.balance (js := js) ⟨g, d1⟩ (d2 pg rfl) hs
  have p := taken_perm q1
  have hm : ∀ q ∈ qss.flatten, ∃ t ∈ asked admits (meanings js), q ∈ selection filters t := fun q hq => List.mem_flatMap.1 (p.mem_iff.1 hq)
  refine ⟨_, text, q3, C146_balances h0 h1 (by rwa [turnover_perm p]) (fun q hq a ha => ?_) q2, fun c hz => balanceMixes_one (c := c) _ _ fun q hq a ha => ?_⟩
  · obtain ⟨t, ht, hq⟩ := hm q hq
    exact hc t ht q hq a ha
  · obtain ⟨t, ht, hq⟩ := hm q (by simpa using hq)
    exact hz t ht q hq a ha

/-- The same for `budget`, if no top category has a name of more than 30 runes. -/
theorem C146_budget (g : Setting m o args bytes filters admits path) {pg : Page} (r : Reading m.fs m.lib m.maxOpen path bytes js (.ok pg)) (hs : ¬ Command.budget.Short filters admits (meanings js))
    {k : Nat} (h0 : 3 ≤ k) (h1 : k ≤ 15) (h : turnover (((meanings js).flatMap (Meant.filed filters admits)).map Filed.posting) < 10 ^ k)
    (hc : ∀ e ∈ (meanings js).flatMap (Meant.filed filters admits), ∀ a, e.posting.amount = some a → a.commodity.length + k ≤ 18)
    (hn : ∀ e ∈ (meanings js).flatMap (Meant.filed filters admits), ∀ c ds, e.category = some (c :: ds) → c.length ≤ 30) :
    ∃ W text, m.run o .budget args = ⟨W ++ text, .exit 0⟩ ∧ BudgetInColumns text ∧
      ((∀ e ∈ (meanings js).flatMap (Meant.filed filters admits), ∀ a, e.posting.amount = some a → a.commodity = []) → W = []) := by
  obtain ⟨d1, d2, _⟩ := C99_parsed r
  obtain ⟨xss, text, q1, q2, q3⟩ := Heard.budget (js := js) ⟨g, d1⟩ (d2 pg rfl) hs
  have p := filedAs_perm q1
  refine ⟨_, text, q3, C146_budgets h0 h1 (by rwa [turnover_perm (p.map _)]) (fun e he => hc e (p.mem_iff.1 he)) (fun e he => hn e (p.mem_iff.1 he)) q2,
    fun hz => budgetMixes_blank fun e he => hz e (p.mem_iff.1 (by simpa using he))⟩

end

set_option maxRecDepth 100000 in
/-- Nothing is cut: an amount of ten thousand million million takes another column, as does the name of a category of 31 runes. -/
theorem C146_wide_false :
    letI := asciiUnicode
    let a := machineWith (str "f") "2020-01-02 x\n  A  10000000000000000\n  B\n"
    let b := machineWith (str "f") "2020-01-02 x\n  Expenses:abcdefghijklmnopqrstuvwxyzabcde  1\n  B\n"
    a.run { file := str "f" } .balance [] = ⟨str "10000000000000000.00  A\n-10000000000000000.00  B\n--------------------\n                0.00\n", .exit 0⟩ ∧
      str "\nabcdefghijklmnopqrstuvwxyzabcde |                -1.00 |                 0.00 |                -1.00 |\n" <:+: (b.run { file := str "f" } .budget []).stdout := by
  decide +kernel

set_option maxRecDepth 100000 in
/-- A balance in columns. -/
example :
    letI := asciiUnicode
    let a := machineWith (str "f") "2020-01-02 x\n  A  $1234.50\n  B:C  $-1234.50\n"
    a.run { file := str "f" } .balance [] = ⟨str "            $1234.50  A\n           $-1234.50  B\n           $-1234.50    C\n--------------------\n                0.00\n", .exit 0⟩ := by
  decide +kernel

/-- The bounds for dollars are far away. -/
example :
    let ps : List Posting := [{ accountPath := str "A", amount := some ⟨str "$", 123450#64⟩ }, { accountPath := str "B:C", amount := some ⟨str "$", -123450#64⟩ }]
    turnover ps < 10 ^ 15 ∧ ∀ p ∈ ps, ∀ a, p.amount = some a → a.commodity.length + 15 ≤ 18 := by
  intro ps
  have : ∀ p ∈ ps, ∀ a ∈ p.amount.toList, a.commodity.length + 15 ≤ 18 := by decide +kernel
  exact ⟨by decide +kernel, fun p hp a ha => this p hp a (by simp [ha])⟩

end Gledger
