/-
C143: the budgets of the parts of a journal add up; those of the parts of a period do as far as incomes and spendings go, while each repeats what is budgeted.
-/
import Verif.Props.Coins
import Verif.Props.Local

namespace Gledger

/-- The three figures of a category among the figures of a month, zero if it is not listed. -/
def MonthFigures.row (x : MonthFigures) (k : Str) : I64 × I64 × I64 :=
  ((x.rows.find? fun r => decide (r.1 = k)).map fun r => (r.2.1, r.2.2.1, r.2.2.2.quantity)).getD (0, 0, 0)

/-- The three figures of a category in a month, in the order of the columns, zero if there are none. -/
def rowIn (xs : List MonthFigures) (d : Date) (k : Str) : I64 × I64 × I64 := ((xs.find? fun x => decide (x.month = d)).map fun x => x.row k).getD (0, 0, 0)

/-- The income of a month, zero if there is none. -/
def incomeIn (xs : List MonthFigures) (d : Date) : I64 := ((xs.find? fun x => decide (x.month = d)).map fun x => x.income.quantity).getD 0

/-- A text shows these figures: the months in order, and in each month the categories in order. -/
structure ShowsFigures (text : Str) (xs : List MonthFigures) : Prop where
  text : text = xs.flatMap MonthFigures.text
  months : xs.Pairwise fun x y => x.month ≠ y.month ∧ x.month.dayNumber ≤ y.month.dayNumber
  rows : ∀ x ∈ xs, x.rows.Pairwise fun a b => StrLt a.1 b.1

section
variable {es : List Filed}

theorem find_self {α : Type} [DecidableEq α] (l : List α) (a : α) : (l.find? fun b => decide (b = a)) = if a ∈ l then some a else none := by
  induction l with
  | nil => rfl
  | cons b l ih =>
    rw [List.find?_cons]
    by_cases h : b = a
    · simp [h]
    · simp [h, ih, Ne.symm h]

theorem filter_none_under {cs : List Str} {pt : PostingType} (h : ∀ e ∈ es, ¬ e.Under cs) : (es.filter fun e => e.type = pt ∧ e.Under cs) = [] :=
  List.filter_eq_nil_iff.2 fun e he => by simp [h e he]

theorem under_one {e : Filed} {k : Str} : e.Under [k] ↔ ∃ ds, e.category = some (k :: ds) := by
  unfold Filed.Under
  constructor
  · rintro ⟨ds, h1, t, rfl⟩
    exact ⟨t, h1⟩
  · rintro ⟨ds, h⟩
    exact ⟨_, h, ds, rfl⟩

/-- The figures of a report. -/
theorem report_figures {text : Str} (R : BudgetReport es text) :
    ∃ xs, ShowsFigures text xs ∧ (∀ d, d ∈ xs.map MonthFigures.month ↔ d.day = 1 ∧ inMonth d.year d.month es ≠ []) ∧
      (∀ d k, (∃ x ∈ xs, x.month = d ∧ k ∈ x.rows.map Prod.fst) ↔ d.day = 1 ∧ ∃ e ∈ inMonth d.year d.month es, ∃ ds, e.category = some (k :: ds)) ∧
      ∀ d, (d.day = 1 → incomeIn xs d = earned (inMonth d.year d.month es) ∧ ∀ k, rowIn xs d k =
        (- spent [k] (inMonth d.year d.month es), budgeted [k] (inMonth d.year d.month es), budgeted [k] (inMonth d.year d.month es) - spent [k] (inMonth d.year d.month es))) ∧
        (d.day ≠ 1 → incomeIn xs d = 0 ∧ ∀ k, rowIn xs d k = (0, 0, 0)) := by
  obtain ⟨ms, ns, n1, o1, c1, k1, e1⟩ := R
  have hfind : ∀ d, ((ms.map fun m => monthFigures m (ns m) (inMonth m.year m.month es)).find? fun x => decide (x.month = d)) =
      if d ∈ ms then some (monthFigures d (ns d) (inMonth d.year d.month es)) else none := fun d => by
    have hq : ((fun x : MonthFigures => decide (x.month = d)) ∘ fun m => monthFigures m (ns m) (inMonth m.year m.month es)) = fun m => decide (m = d) := rfl
    rw [List.find?_map, hq, find_self]
    split <;> rfl
  refine ⟨ms.map fun m => monthFigures m (ns m) (inMonth m.year m.month es), ⟨?_, ?_, ?_⟩, fun d => ?_, fun d k => ?_, fun d => ⟨fun hd => ?_, fun hd => ?_⟩⟩
  · rw [e1, List.flatMap_map]
    exact flatMap_congr_mem fun m _ => (monthFigures_text _ _ _).symm
  · rw [List.pairwise_map]
    exact n1.imp₂ (fun _ _ h1 h2 => ⟨h1, h2⟩) o1
  · intro x hx
    obtain ⟨m, hm, rfl⟩ := List.mem_map.1 hx
    unfold monthFigures
    rw [List.pairwise_map]
    exact (k1 m hm).1
  · rw [← c1, List.map_map]
    constructor
    · rintro h
      obtain ⟨m, hm, rfl⟩ := List.mem_map.1 h
      exact hm
    · exact fun h => List.mem_map.2 ⟨d, h, rfl⟩
  · constructor
    · rintro ⟨x, hx, rfl, hk⟩
      obtain ⟨m, hm, rfl⟩ := List.mem_map.1 hx
      obtain ⟨r, hr, rfl⟩ := List.mem_map.1 hk
      obtain ⟨c, hc, rfl⟩ := List.mem_map.1 hr
      exact ⟨((c1 m).1 hm).1, ((k1 m hm).2 c).1 hc⟩
    · rintro ⟨hd, e, he, ds, hc⟩
      have hm : d ∈ ms := (c1 d).2 ⟨hd, List.ne_nil_of_mem he⟩
      refine ⟨_, List.mem_map.2 ⟨d, hm, rfl⟩, rfl, List.mem_map.2 ⟨_, List.mem_map.2 ⟨k, ((k1 d hm).2 k).2 ⟨e, he, ds, hc⟩, rfl⟩, rfl⟩⟩
  · unfold incomeIn rowIn
    rw [hfind]
    by_cases hm : d ∈ ms
    · rw [if_pos hm]
      refine ⟨rfl, fun k => ?_⟩
      simp only [Option.map_some, Option.getD_some, MonthFigures.row, monthFigures]
      rw [List.find?_map]
      have hq : ∀ F : Str → Str × I64 × I64 × Amount, (∀ c, (F c).1 = c) → ((fun r : Str × I64 × I64 × Amount => decide (r.1 = k)) ∘ F) = fun c => decide (c = k) :=
        fun F hF => funext fun c => by simp [hF]
      rw [hq _ fun _ => rfl, find_self]
      by_cases hk : k ∈ ns d
      · rw [if_pos hk]
        rfl
      · rw [if_neg hk]
        have hn : ∀ e ∈ inMonth d.year d.month es, ¬ e.Under [k] := fun e he hu => hk (((k1 d hm).2 k).2 ⟨e, he, under_one.1 hu⟩)
        unfold spent budgeted
        rw [filter_none_under hn, filter_none_under hn]
        rfl
    · rw [if_neg hm]
      have : inMonth d.year d.month es = [] := by
        by_contra h
        exact hm ((c1 d).2 ⟨hd, h⟩)
      rw [this]
      exact ⟨rfl, fun k => by simp [spent, budgeted, worth]⟩
  · have hm : d ∉ ms := fun h => hd ((c1 d).1 h).1
    unfold incomeIn rowIn
    rw [hfind, if_neg hm]
    exact ⟨rfl, fun _ => rfl⟩

end

section
variable {es es₁ es₂ : List Filed} {text text₁ text₂ : Str}

theorem worth_split {es es₁ es₂ : List Filed} (h : es.Perm (es₁ ++ es₂)) : worth es = worth es₁ + worth es₂ := by
  unfold worth
  rw [(h.map _).sum_eq, List.map_append, List.sum_append]

/-- What is filed in two parts: the months and the categories in a month are those of either part, and each figure is the sum of the figures of the parts. -/
theorem C143_reports (h : es.Perm (es₁ ++ es₂)) (R : BudgetReport es text) (R₁ : BudgetReport es₁ text₁) (R₂ : BudgetReport es₂ text₂) :
    ∃ xs xs₁ xs₂, ShowsFigures text xs ∧ ShowsFigures text₁ xs₁ ∧ ShowsFigures text₂ xs₂ ∧ ∀ d,
      (d ∈ xs.map MonthFigures.month ↔ d ∈ xs₁.map MonthFigures.month ∨ d ∈ xs₂.map MonthFigures.month) ∧
      incomeIn xs d = incomeIn xs₁ d + incomeIn xs₂ d ∧ ∀ k,
        ((∃ x ∈ xs, x.month = d ∧ k ∈ x.rows.map Prod.fst) ↔ (∃ x ∈ xs₁, x.month = d ∧ k ∈ x.rows.map Prod.fst) ∨ ∃ x ∈ xs₂, x.month = d ∧ k ∈ x.rows.map Prod.fst) ∧
        (rowIn xs d k).1 = (rowIn xs₁ d k).1 + (rowIn xs₂ d k).1 ∧ (rowIn xs d k).2.1 = (rowIn xs₁ d k).2.1 + (rowIn xs₂ d k).2.1 ∧
        (rowIn xs d k).2.2 = (rowIn xs₁ d k).2.2 + (rowIn xs₂ d k).2.2 := by
  obtain ⟨xs, a1, a2, a3, a4⟩ := report_figures R
  obtain ⟨xs₁, b1, b2, b3, b4⟩ := report_figures R₁
  obtain ⟨xs₂, c1, c2, c3, c4⟩ := report_figures R₂
  refine ⟨xs, xs₁, xs₂, a1, b1, c1, fun d => ?_⟩
  have hm : (inMonth d.year d.month es).Perm (inMonth d.year d.month es₁ ++ inMonth d.year d.month es₂) := by
    unfold inMonth
    rw [← List.filter_append]
    exact h.filter _
  have hw : ∀ p : Filed → Bool, worth ((inMonth d.year d.month es).filter p) = worth ((inMonth d.year d.month es₁).filter p) + worth ((inMonth d.year d.month es₂).filter p) := fun p =>
    worth_split (by rw [← List.filter_append]; exact hm.filter p)
  refine ⟨?_, ?_, fun k => ⟨?_, ?_⟩⟩
  · rw [a2, b2, c2, ← and_or_left, ne_eq, ← List.length_eq_zero_iff, hm.length_eq, List.length_append, Nat.add_eq_zero_iff, List.length_eq_zero_iff, List.length_eq_zero_iff]
    tauto
  · by_cases hd : d.day = 1
    · rw [((a4 d).1 hd).1, ((b4 d).1 hd).1, ((c4 d).1 hd).1]
      unfold earned
      rw [hw, BitVec.neg_add, BitVec.sub_eq_add_neg]
    · rw [((a4 d).2 hd).1, ((b4 d).2 hd).1, ((c4 d).2 hd).1]
      rfl
  · rw [a3, b3, c3, ← and_or_left]
    simp only [hm.mem_iff, List.mem_append, or_and_right, exists_or]
  · by_cases hd : d.day = 1
    · rw [((a4 d).1 hd).2, ((b4 d).1 hd).2, ((c4 d).1 hd).2]
      unfold spent budgeted
      rw [hw, hw]
      refine ⟨?_, rfl, ?_⟩
      · simp only [BitVec.sub_eq_add_neg, BitVec.neg_add]
      · simp only [BitVec.sub_eq_add_neg, BitVec.neg_add]
        ac_rfl
    · rw [((a4 d).2 hd).2, ((b4 d).2 hd).2, ((c4 d).2 hd).2]
      exact ⟨rfl, rfl, rfl⟩

/-- The same budgeted on each side, incomes and spendings shared out. -/
theorem C143_shared {xs₀ a b : List Filed} (hx : ∀ e ∈ xs₀, e.type = .envelope) (ha : ∀ e ∈ a, e.type ≠ .envelope) (hb : ∀ e ∈ b, e.type ≠ .envelope)
    (h : es.Perm (xs₀ ++ (a ++ b))) (h₁ : es₁.Perm (xs₀ ++ a)) (h₂ : es₂.Perm (xs₀ ++ b)) (R : BudgetReport es text) (R₁ : BudgetReport es₁ text₁) (R₂ : BudgetReport es₂ text₂) :
    ∃ xs xs₁ xs₂, ShowsFigures text xs ∧ ShowsFigures text₁ xs₁ ∧ ShowsFigures text₂ xs₂ ∧ ∀ d,
      (d ∈ xs.map MonthFigures.month ↔ d ∈ xs₁.map MonthFigures.month ∨ d ∈ xs₂.map MonthFigures.month) ∧
      incomeIn xs d = incomeIn xs₁ d + incomeIn xs₂ d ∧ ∀ k,
        ((∃ x ∈ xs, x.month = d ∧ k ∈ x.rows.map Prod.fst) ↔ (∃ x ∈ xs₁, x.month = d ∧ k ∈ x.rows.map Prod.fst) ∨ ∃ x ∈ xs₂, x.month = d ∧ k ∈ x.rows.map Prod.fst) ∧
        (rowIn xs d k).1 = (rowIn xs₁ d k).1 + (rowIn xs₂ d k).1 ∧ (rowIn xs d k).2.1 = (rowIn xs₁ d k).2.1 ∧ (rowIn xs d k).2.1 = (rowIn xs₂ d k).2.1 := by
  obtain ⟨xs, a1, a2, a3, a4⟩ := report_figures R
  obtain ⟨xs₁, b1, b2, b3, b4⟩ := report_figures R₁
  obtain ⟨xs₂, c1, c2, c3, c4⟩ := report_figures R₂
  refine ⟨xs, xs₁, xs₂, a1, b1, c1, fun d => ?_⟩
  have hme : ∀ e, e ∈ inMonth d.year d.month es ↔ e ∈ inMonth d.year d.month es₁ ∨ e ∈ inMonth d.year d.month es₂ := fun e => by
    unfold inMonth
    rw [List.mem_filter, List.mem_filter, List.mem_filter, h.mem_iff, h₁.mem_iff, h₂.mem_iff]
    simp only [List.mem_append]
    tauto
  have hnil : ∀ l : List Filed, l ≠ [] ↔ ∃ e, e ∈ l := fun l => by cases l <;> simp
  have key : ∀ (l₁ l₂ : List Filed) (p : Filed → Bool), (∀ e ∈ l₁, p e = false) → worth ((inMonth d.year d.month (l₁ ++ l₂)).filter p) = worth ((inMonth d.year d.month l₂).filter p) :=
    fun l₁ l₂ p hp => by
      unfold inMonth
      rw [List.filter_append, List.filter_append, List.filter_filter, List.filter_eq_nil_iff.2 fun e he => by simp [hp e he], List.nil_append]
  have key' : ∀ (l₁ l₂ : List Filed) (p : Filed → Bool), (∀ e ∈ l₂, p e = false) → worth ((inMonth d.year d.month (l₁ ++ l₂)).filter p) = worth ((inMonth d.year d.month l₁).filter p) :=
    fun l₁ l₂ p hp => by
      unfold inMonth
      rw [List.filter_append, List.filter_append, List.filter_filter (l := l₂), (List.filter_eq_nil_iff (l := l₂)).2 fun e he => by simp [hp e he], List.append_nil]
  have hpw : ∀ {l l' : List Filed} (p : Filed → Bool), l.Perm l' → worth ((inMonth d.year d.month l).filter p) = worth ((inMonth d.year d.month l').filter p) := fun p hp => by
    exact worth_perm ((hp.filter _).filter _)
  have happ : ∀ p : Filed → Bool, worth ((inMonth d.year d.month (a ++ b)).filter p) = worth ((inMonth d.year d.month a).filter p) + worth ((inMonth d.year d.month b).filter p) := fun p =>
    worth_split (by unfold inMonth; rw [List.filter_append, List.filter_append])
  have hadd : ∀ p : Filed → Bool, (∀ e ∈ xs₀, p e = false) → worth ((inMonth d.year d.month es).filter p) = worth ((inMonth d.year d.month es₁).filter p) + worth ((inMonth d.year d.month es₂).filter p) := fun p hp => by
    rw [hpw p h, hpw p h₁, hpw p h₂, key _ _ p hp, key _ _ p hp, key _ _ p hp, happ]
  have hsame : ∀ p : Filed → Bool, (∀ e ∈ a ++ b, p e = false) → worth ((inMonth d.year d.month es).filter p) = worth ((inMonth d.year d.month es₁).filter p) ∧
      worth ((inMonth d.year d.month es).filter p) = worth ((inMonth d.year d.month es₂).filter p) := fun p hp => by
    rw [hpw p h, hpw p h₁, hpw p h₂, key' _ _ p hp, key' _ _ p fun e he => hp e (List.mem_append_left _ he), key' _ _ p fun e he => hp e (List.mem_append_right _ he)]
    exact ⟨rfl, rfl⟩
  have hab : ∀ e ∈ a ++ b, e.type ≠ .envelope := fun e he => (List.mem_append.1 he).elim (ha e) (hb e)
  refine ⟨?_, ?_, fun k => ⟨?_, ?_⟩⟩
  · rw [a2, b2, c2, ← and_or_left, hnil, hnil, hnil, ← exists_or]
    simp only [hme]
  · by_cases hd : d.day = 1
    · rw [((a4 d).1 hd).1, ((b4 d).1 hd).1, ((c4 d).1 hd).1]
      unfold earned
      rw [hadd _ fun e he => by simp [hx e he], BitVec.neg_add, BitVec.sub_eq_add_neg]
    · rw [((a4 d).2 hd).1, ((b4 d).2 hd).1, ((c4 d).2 hd).1]
      rfl
  · rw [a3, b3, c3, ← and_or_left]
    simp only [hme, or_and_right, exists_or]
  · by_cases hd : d.day = 1
    · rw [((a4 d).1 hd).2, ((b4 d).1 hd).2, ((c4 d).1 hd).2]
      unfold spent budgeted
      have h3 := hsame (fun e => decide (e.type = .envelope ∧ e.Under [k])) fun e he => by simp [hab e he]
      refine ⟨?_, h3.1, h3.2⟩
      dsimp only
      rw [hadd _ fun e he => by simp [hx e he], BitVec.neg_add, BitVec.sub_eq_add_neg]
    · rw [((a4 d).2 hd).2, ((b4 d).2 hd).2, ((c4 d).2 hd).2]
      exact ⟨rfl, rfl, rfl⟩

end

section
variable [Unicode] {fs : FileSystem} {n : Nat} {path : Str} {e : Env} {sort : List Date → List Date}

/-- A journal in two parts, separated by a blank line: there is a budget of the whole exactly if there is one of each part, and then it shows the months and categories of
either part and the sums of their figures. -/
theorem C143_journal (ho : ∀ l, (e.mapOrder l).Perm l) (hd : e.dateError = none) (hs : SortsMonths sort) {a nl b : List UInt8} (ha : WholeLines a) (hnl : BlankLine nl)
    (hr : rejection fs n a path = none) :
    ((∃ text, budgetCmd e sort fs n (a ++ (nl ++ b)) path = .ok text) ↔ (∃ text, budgetCmd e sort fs n a path = .ok text) ∧ ∃ text, budgetCmd e sort fs n b path = .ok text) ∧
    ∀ {text text₁ text₂}, budgetCmd e sort fs n (a ++ (nl ++ b)) path = .ok text → budgetCmd e sort fs n a path = .ok text₁ → budgetCmd e sort fs n b path = .ok text₂ →
      ∃ xs xs₁ xs₂, ShowsFigures text xs ∧ ShowsFigures text₁ xs₁ ∧ ShowsFigures text₂ xs₂ ∧ ∀ d,
        (d ∈ xs.map MonthFigures.month ↔ d ∈ xs₁.map MonthFigures.month ∨ d ∈ xs₂.map MonthFigures.month) ∧
        incomeIn xs d = incomeIn xs₁ d + incomeIn xs₂ d ∧ ∀ k,
          ((∃ x ∈ xs, x.month = d ∧ k ∈ x.rows.map Prod.fst) ↔ (∃ x ∈ xs₁, x.month = d ∧ k ∈ x.rows.map Prod.fst) ∨ ∃ x ∈ xs₂, x.month = d ∧ k ∈ x.rows.map Prod.fst) ∧
          (rowIn xs d k).1 = (rowIn xs₁ d k).1 + (rowIn xs₂ d k).1 ∧ (rowIn xs d k).2.1 = (rowIn xs₁ d k).2.1 + (rowIn xs₂ d k).2.1 ∧
          (rowIn xs d k).2.2 = (rowIn xs₁ d k).2.2 + (rowIn xs₂ d k).2.2 := by
  obtain ⟨k1, k2⟩ := delivered_parts fs n path a nl b ha hnl hr
  have hf : e.filed (delivered fs n (a ++ (nl ++ b)) path) = e.filed (delivered fs n a path) ++ e.filed (delivered fs n b path) := by
    rw [k1]
    exact List.flatMap_append
  refine ⟨?_, fun h h1 h2 => ?_⟩
  · rw [budgetCmd_ok_iff ho hd, budgetCmd_ok_iff ho hd, budgetCmd_ok_iff ho hd, k2]
    simp only [Command.Lacks, hf, List.mem_append, or_and_right, exists_or, not_or, hr, true_and]
    tauto
  · obtain ⟨es, p, R⟩ := C67_budget_report e ho sort hs fs n _ path _ h
    obtain ⟨es₁, p₁, R₁⟩ := C67_budget_report e ho sort hs fs n _ path _ h1
    obtain ⟨es₂, p₂, R₂⟩ := C67_budget_report e ho sort hs fs n _ path _ h2
    refine C143_reports (p.trans ?_) R R₁ R₂
    rw [hf]
    exact (p₁.append p₂).symm

omit [Unicode] in
theorem filed_period (e : Env) (hc : e.current = false) (D : Str) (x y z : Int) (hx : e.bound e.beginDate = .ok x) (hy : e.bound e.endDate = .ok y)
    (hz : e.bound D = .ok z) (h0 : z ≠ 0) (h1 : x ≤ z) (h2 : y = 0 ∨ z ≤ y) (calls : List Call) :
    ∃ E A B : List Filed, (∀ i ∈ E, i.type = .envelope) ∧ (∀ i ∈ A, i.type ≠ .envelope) ∧ (∀ i ∈ B, i.type ≠ .envelope) ∧
      (e.filed calls).Perm (E ++ (A ++ B)) ∧ ({ e with endDate := D }.filed calls).Perm (E ++ A) ∧ ({ e with beginDate := D }.filed calls).Perm (E ++ B) := by
  classical
  induction calls with
  | nil => exact ⟨[], [], [], by simp [Env.filed]⟩
  | cons c calls ih =>
    obtain ⟨E, A, B, q1, q2, q3, q4, q5, q6⟩ := ih
    have hcons : ∀ e : Env, e.filed (c :: calls) = e.filedOf c ++ e.filed calls := fun e => by simp [Env.filed]
    rw [hcons, hcons, hcons]
    rw [List.perm_iff_count] at q4 q5 q6
    cases c with
    | periodic pt f =>
      refine ⟨e.filedOf (.periodic pt f) ++ E, A, B, ?_, q2, q3, ?_, ?_, ?_⟩
      · intro i hi
        rcases List.mem_append.1 hi with hi | hi
        · unfold Env.filedOf at hi
          dsimp only at hi
          split at hi
          · obtain ⟨p, _, rfl⟩ := List.mem_map.1 hi
            rfl
          · cases hi
        · exact q1 i hi
      · rw [List.perm_iff_count]
        intro i
        have := q4 i
        simp only [List.count_append] at this ⊢
        omega
      · rw [List.perm_iff_count]
        intro i
        have := q5 i
        simp only [List.count_append, Env.filedOf] at this ⊢
        omega
      · rw [List.perm_iff_count]
        intro i
        have := q6 i
        simp only [List.count_append, Env.filedOf] at this ⊢
        omega
    | normal t f =>
      obtain ⟨k1, k2⟩ := picked_split e hc D x y z hx hy hz h0 h1 h2 t
      unfold Env.InRange at k1 k2
      have hty : ∀ (e : Env), ∀ i ∈ e.filedOf (.normal t f), i.type ≠ .envelope := by
        intro e i hi
        unfold Env.filedOf at hi
        obtain ⟨p, _, hp⟩ := List.mem_filterMap.1 hi
        split at hp
        · cases hp; exact PostingType.noConfusion
        · split at hp
          · cases hp; exact PostingType.noConfusion
          · cases hp
      have hout : ∀ e : Env, ¬ e.withinDateRange t = .ok true → e.filedOf (.normal t f) = [] := fun e h => by
        simp only [Env.filedOf, Env.selectedOf, if_neg h, List.filterMap_nil]
      have hin : ∀ e₁ e₂ : Env, e₁.filters = e₂.filters → e₁.withinDateRange t = .ok true → e₂.withinDateRange t = .ok true → e₁.filedOf (.normal t f) = e₂.filedOf (.normal t f) :=
        fun e₁ e₂ hf h₁ h₂ => by simp only [Env.filedOf, Env.selectedOf, if_pos h₁, if_pos h₂, hf]
      by_cases a1 : { e with endDate := D }.withinDateRange t = .ok true
      · have a2 : ¬ { e with beginDate := D }.withinDateRange t = .ok true := fun h => k2 ⟨a1, h⟩
        rw [hout _ a2, hin { e with endDate := D } e rfl a1 (k1.2 (Or.inl a1))]
        refine ⟨E, e.filedOf (.normal t f) ++ A, B, q1, ?_, q3, ?_, ?_, List.perm_iff_count.2 q6⟩
        · exact fun i hi => (List.mem_append.1 hi).elim (hty e i) (q2 i)
        all_goals
          rw [List.perm_iff_count]
          intro i
          have := q4 i
          have := q5 i
          simp only [List.count_append] at *
          omega
      · by_cases a2 : { e with beginDate := D }.withinDateRange t = .ok true
        · rw [hout _ a1, hin { e with beginDate := D } e rfl a2 (k1.2 (Or.inr a2))]
          refine ⟨E, A, e.filedOf (.normal t f) ++ B, q1, q2, ?_, ?_, List.perm_iff_count.2 q5, ?_⟩
          · exact fun i hi => (List.mem_append.1 hi).elim (hty e i) (q3 i)
          all_goals
            rw [List.perm_iff_count]
            intro i
            have := q4 i
            have := q6 i
            simp only [List.count_append] at *
            omega
        · rw [hout _ a1, hout _ a2, hout e fun h => (k1.1 h).elim a1 a2]
          exact ⟨E, A, B, q1, q2, q3, List.perm_iff_count.2 q4, List.perm_iff_count.2 q5, List.perm_iff_count.2 q6⟩

/-- A period in two parts: incomes and spendings of the parts add up, and what is budgeted is shown for each part as for the whole. -/
theorem C143_period (ho : ∀ l, (e.mapOrder l).Perm l) (hs : SortsMonths sort) (hc : e.current = false) (D : Str) (x y z : Int) (hx : e.bound e.beginDate = .ok x)
    (hy : e.bound e.endDate = .ok y) (hz : e.bound D = .ok z) (h0 : z ≠ 0) (h1 : x ≤ z) (h2 : y = 0 ∨ z ≤ y) {bytes : List UInt8} {text text₁ text₂ : Str}
    (h : budgetCmd e sort fs n bytes path = .ok text) (h₁ : budgetCmd { e with endDate := D } sort fs n bytes path = .ok text₁)
    (h₂ : budgetCmd { e with beginDate := D } sort fs n bytes path = .ok text₂) :
    ∃ xs xs₁ xs₂, ShowsFigures text xs ∧ ShowsFigures text₁ xs₁ ∧ ShowsFigures text₂ xs₂ ∧ ∀ d,
      (d ∈ xs.map MonthFigures.month ↔ d ∈ xs₁.map MonthFigures.month ∨ d ∈ xs₂.map MonthFigures.month) ∧
      incomeIn xs d = incomeIn xs₁ d + incomeIn xs₂ d ∧ ∀ k,
        ((∃ x ∈ xs, x.month = d ∧ k ∈ x.rows.map Prod.fst) ↔ (∃ x ∈ xs₁, x.month = d ∧ k ∈ x.rows.map Prod.fst) ∨ ∃ x ∈ xs₂, x.month = d ∧ k ∈ x.rows.map Prod.fst) ∧
        (rowIn xs d k).1 = (rowIn xs₁ d k).1 + (rowIn xs₂ d k).1 ∧ (rowIn xs d k).2.1 = (rowIn xs₁ d k).2.1 ∧ (rowIn xs d k).2.1 = (rowIn xs₂ d k).2.1 := by
  obtain ⟨es, p, R⟩ := C67_budget_report e ho sort hs fs n _ path _ h
  obtain ⟨es₁, p₁, R₁⟩ := C67_budget_report { e with endDate := D } ho sort hs fs n _ path _ h₁
  obtain ⟨es₂, p₂, R₂⟩ := C67_budget_report { e with beginDate := D } ho sort hs fs n _ path _ h₂
  obtain ⟨E, A, B, q1, q2, q3, q4, q5, q6⟩ := filed_period e hc D x y z hx hy hz h0 h1 h2 (delivered fs n bytes path)
  exact C143_shared q1 q2 q3 (p.trans q4) (p₁.trans q5) (p₂.trans q6) R R₁ R₂

end

set_option maxRecDepth 100000 in
/-- Two parts of a journal and the whole. -/
example :
    letI := asciiUnicode
    let a := machineWith (str "f") "~ 2020-01\n  Food  $10\n\n2020-01-02 x\n  Expenses:Food  $3\n  Assets\n"
    let b := machineWith (str "f") "~ 2020-01\n  Food  $4\n\n2020-01-09 x\n  Expenses:Food  $5\n  Assets\n"
    let ab := machineWith (str "f") "~ 2020-01\n  Food  $10\n\n2020-01-02 x\n  Expenses:Food  $3\n  Assets\n\n~ 2020-01\n  Food  $4\n\n2020-01-09 x\n  Expenses:Food  $5\n  Assets\n"
    str "Food                           |                -3.00 |                10.00 |                $7.00 |\n" <:+: (a.run { file := str "f" } .budget []).stdout ∧
    str "Food                           |                -5.00 |                 4.00 |               $-1.00 |\n" <:+: (b.run { file := str "f" } .budget []).stdout ∧
    str "Food                           |                -8.00 |                14.00 |                $6.00 |\n" <:+: (ab.run { file := str "f" } .budget []).stdout := by
  decide +kernel

set_option maxRecDepth 100000 in
/-- The figures of the parts of a period do not all add up: what is budgeted is shown for both parts, whether or not the month is among them. -/
theorem C143_budgeted_false :
    letI := asciiUnicode
    let a := machineWith (str "f") "~ 2020-01\n  Food  $10\n\n2020-01-02 x\n  Expenses:Food  $3\n  Assets\n\n2020-02-02 x\n  Expenses:Food  $4\n  Assets\n"
    str "Food                           |                -3.00 |                10.00 |                $7.00 |\n" <:+: (a.run { file := str "f" } .budget []).stdout ∧
    str "Food                           |                -3.00 |                10.00 |                $7.00 |\n" <:+: (a.run { file := str "f", endDate := str "2020-02-01" } .budget []).stdout ∧
    str "Food                           |                 0.00 |                10.00 |               $10.00 |\n" <:+: (a.run { file := str "f", beginDate := str "2020-02-01" } .budget []).stdout := by
  decide +kernel

end Gledger
