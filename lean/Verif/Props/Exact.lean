/-
C113 to C115: the program's 64-bit sums against exact ones.
-/
import Verif.Spec.Exact
import Verif.Props.Balances
import Verif.Props.Budgets
import Verif.Props.Transactions
import Verif.Props.Amounts

namespace Gledger

variable {σ : Type}

theorem Posting.value_hundredths (p : Posting) : p.value = BitVec.ofInt 64 p.hundredths := by
  unfold Posting.value Posting.hundredths
  cases p.amount with
  | none => rfl
  | some a => exact (BitVec.ofInt_toInt).symm

/-- The program's sum is the exact one modulo 2^64. -/
theorem valueOf_exact (ps : List Posting) : valueOf ps = BitVec.ofInt 64 (exactSum ps) := by
  unfold valueOf exactSum
  induction ps with
  | nil => rfl
  | cons p ps ih => rw [List.map_cons, List.map_cons, List.sum_cons, List.sum_cons, ih, p.value_hundredths, BitVec.ofInt_add]

theorem toInt_range (q : I64) : Int64Range q.toInt := by
  have h1 := BitVec.le_toInt q
  have h2 := BitVec.toInt_lt (x := q)
  exact ⟨by simpa using h1, by simpa using h2⟩

theorem ofInt_exact {v : Int} : (BitVec.ofInt 64 v : I64).toInt = v ↔ Int64Range v :=
  ⟨fun h => h ▸ toInt_range _, toInt_ofInt⟩

theorem ofInt_zero {v : Int} : (BitVec.ofInt 64 v : I64) = 0 ↔ (2 ^ 64 : Int) ∣ v := by
  constructor
  · intro h
    have := congrArg BitVec.toInt h
    rw [BitVec.toInt_ofInt] at this
    exact Int.dvd_of_bmod_eq_zero this
  · intro h
    apply BitVec.eq_of_toInt_eq
    rw [BitVec.toInt_ofInt]
    exact Int.bmod_eq_zero_of_dvd h

theorem exactSum_turnover (ps : List Posting) : (exactSum ps).natAbs ≤ turnover ps := by
  unfold exactSum turnover
  induction ps with
  | nil => simp
  | cons p ps ih =>
    simp only [List.map_cons, List.sum_cons]
    omega

theorem turnover_filter (ps : List Posting) (f : Posting → Bool) : turnover (ps.filter f) ≤ turnover ps := by
  unfold turnover
  induction ps with
  | nil => simp
  | cons p ps ih =>
    simp only [List.filter_cons]
    split <;> simp only [List.map_cons, List.sum_cons] <;> omega

/-! ### C113 Delivered transactions balance exactly -/

/-- What balances for the program is a multiple of 2^64, and conversely. -/
theorem C113_balanced_iff (t : Transaction) : t.Balanced ↔ (2 ^ 64 : Int) ∣ exactSum t.postings := by
  rw [← ofInt_zero, ← valueOf_exact]
  rfl

/-- A transaction with an exact sum that is not zero is delivered: 92233720368547758.07 twice and 0.02 count as nothing, being 2^64 hundredths. -/
theorem C113_balance_exactly_false : ¬ ∀ (_U : Unicode) (fs : FileSystem) (maxOpen : Nat) (bytes : List UInt8) (path : Str),
    rejection fs maxOpen bytes path = none → ∀ c ∈ delivered fs maxOpen bytes path, c.transaction.BalancedExactly := by
  intro h
  have := h asciiUnicode noFiles 1 (utf8 "2020-01-01 x\n  A  92233720368547758.07\n  B  92233720368547758.07\n  C  0.02\n") (str "f")
  revert this
  decide +kernel

/-- Whatever is delivered has an exact sum that is a multiple of 2^64, and is zero if the amounts that are moved are less than 2^64 hundredths altogether, that is,
184467440737095516.15 units. -/
theorem C113_balance_exactly_partial [Unicode] (fs : FileSystem) (H : Handlers σ) (maxOpen : Nat) (bytes : List UInt8) (path : Str) (u : σ) :
    ∀ c ∈ callsOf fs H maxOpen bytes path u,
      (2 ^ 64 : Int) ∣ exactSum c.transaction.postings ∧ (turnover c.transaction.postings < 2 ^ 64 → c.transaction.BalancedExactly) := by
  intro c hc
  have h := (C113_balanced_iff _).1 (C01_delivered_balance fs H maxOpen bytes path u c hc)
  refine ⟨h, fun ht => ?_⟩
  have := exactSum_turnover c.transaction.postings
  obtain ⟨k, hk⟩ := h
  unfold Transaction.BalancedExactly
  rw [hk] at this ⊢
  have h64 : (2 ^ 64 : Int) = 18446744073709551616 := by norm_num
  have h64' : (2 ^ 64 : Nat) = 18446744073709551616 := by norm_num
  rw [h64] at this ⊢
  rw [h64'] at ht
  omega

/-- With two postings it always does, unless both are the least amount there is. -/
theorem C113_two_partial [Unicode] (fs : FileSystem) (H : Handlers σ) (maxOpen : Nat) (bytes : List UInt8) (path : Str) (u : σ) :
    ∀ c ∈ callsOf fs H maxOpen bytes path u, ∀ p q, c.transaction.postings = [p, q] →
      c.transaction.BalancedExactly ∨ (p.hundredths = -2 ^ 63 ∧ q.hundredths = -2 ^ 63) := by
  intro c hc p q hpq
  have h := (C113_balanced_iff _).1 (C01_delivered_balance fs H maxOpen bytes path u c hc)
  unfold Transaction.BalancedExactly
  rw [hpq] at h ⊢
  have range : ∀ p : Posting, Int64Range p.hundredths := by
    intro p
    unfold Posting.hundredths
    cases p.amount with
    | none => exact ⟨by norm_num, by norm_num⟩
    | some a => exact toInt_range _
  obtain ⟨h1, h2⟩ := range p
  obtain ⟨h3, h4⟩ := range q
  simp only [exactSum, List.map_cons, List.map_nil, List.sum_cons, List.sum_nil] at h ⊢
  obtain ⟨k, hk⟩ := h
  have h64 : (2 ^ 64 : Int) = 18446744073709551616 := by norm_num
  have h63 : (2 ^ 63 : Int) = 9223372036854775808 := by norm_num
  rw [h64] at hk
  rw [h63] at *
  omega

/-- Conversely, no transaction that balances exactly is rejected for not balancing. -/
theorem C113_accepts (t : Transaction) (h0 : t.postings = []) (ps : List Posting) (ha : ∀ p ∈ ps, p.amount ≠ none)
    (hs : exactSum ps = 0) : (t.addAll ps).close.2 = none := by
  rw [addAll_amounted t ps ha, close_eq]
  have hz : (({ t with postings := t.postings ++ ps } : Transaction).postings.foldl closeStep ([], 0)).2 = 0 := by
    rw [foldl_closeStep_sum, h0, List.nil_append, zero_add]
    show valueOf ps = 0
    rw [valueOf_exact, hs]
    rfl
  rw [if_neg (by simpa using hz)]

/-- An amount that is left out is filled in exactly, if what the other amounts leave open can be stored at all. -/
theorem C113_inferred (ps : List Posting) : (-(valueOf ps)).toInt = -exactSum ps ↔ Int64Range (-exactSum ps) := by
  rw [valueOf_exact, ← BitVec.ofInt_neg, ofInt_exact]

/-- Three postings of which one is inferred: within the bound; the sum is zero. -/
example :
    letI := asciiUnicode
    let text := utf8 "2020-01-01 x\n  A  703687441776.63\n  B  -2\n  C\n"
    (callsOf noFiles recorder 1 text (str "f") []).map (fun c => (turnover c.transaction.postings, exactSum c.transaction.postings)) =
      [(140737488355326, 0)] := by decide +kernel

/-! ### C114 Balances are exact sums -/

/-- The balance of an account is the exact sum of the selected postings below it if and only if that sum can be stored in 64 bits (however the sums on the way there
overflow). -/
theorem C114_exact_iff_partial [Unicode] (e : Env) (ho : ∀ l, (e.mapOrder l).Perm l) (fs : FileSystem) (maxOpen : Nat) (bytes : List UInt8)
    (path : Str) (j : Journal) (h : runParse fs maxOpen bytes path e.balanceHandlers newJournal = .ok j) (cs : List Str) :
    let sum := exactSum (below cs (e.selected (delivered fs maxOpen bytes path)))
    (j.heap.amt cs).quantity.toInt = sum ↔ Int64Range sum := by
  intro sum
  rw [(C61_filtered_balance e ho fs maxOpen bytes path j h cs).2, valueOf_exact, ofInt_exact]

/-- Otherwise it is not: two deposits of 92233720368547758.07 make a balance of -0.02. -/
theorem C114_balances_exact_false : ¬ ∀ (_U : Unicode) (e : Env) (_ : ∀ l, (e.mapOrder l).Perm l) (fs : FileSystem) (maxOpen : Nat) (bytes : List UInt8)
    (path : Str) (j : Journal), runParse fs maxOpen bytes path e.balanceHandlers newJournal = .ok j →
    ∀ cs, (j.heap.amt cs).quantity.toInt = exactSum (below cs (e.selected (delivered fs maxOpen bytes path))) := by
  intro h
  let := asciiUnicode
  let text := utf8 "2020-01-01 x\n  A  92233720368547758.07\n  B\n\n2020-01-02 x\n  A  92233720368547758.07\n  B\n"
  let e : Env := {}
  have ho : ∀ l, (e.mapOrder l).Perm l := fun l => List.Perm.refl l
  cases hj : runParse noFiles 1 text (str "f") e.balanceHandlers newJournal with
  | error f =>
    have : (runParse noFiles 1 text (str "f") e.balanceHandlers newJournal).isOk = true := by decide +kernel
    rw [hj] at this
    cases this
  | ok j =>
    have h1 := h asciiUnicode e ho noFiles 1 text (str "f") j hj [str "A"]
    have h2 := (C114_exact_iff_partial e ho noFiles 1 text (str "f") j hj [str "A"]).1 h1
    revert h2
    decide +kernel

theorem exactSum_small {ps : List Posting} {n : Nat} (h : turnover ps < n) (f : Posting → Bool) : (exactSum (ps.filter f)).natAbs < n :=
  lt_of_le_of_lt (le_trans (exactSum_turnover _) (turnover_filter ps f)) h

/-- If less than 100*2^46 hundredths (about 7.0e13 units) are moved by the selected postings altogether, every account's balance is the exact sum, and shown as that
sum in units with two decimals. -/
theorem C114_moderate_partial [Unicode] (e : Env) (ho : ∀ l, (e.mapOrder l).Perm l) (fs : FileSystem) (maxOpen : Nat) (bytes : List UInt8)
    (path : Str) (j : Journal) (h : runParse fs maxOpen bytes path e.balanceHandlers newJournal = .ok j)
    (hs : turnover (e.selected (delivered fs maxOpen bytes path)) < 100 * 2 ^ 46) (cs : List Str) :
    let sum := exactSum (below cs (e.selected (delivered fs maxOpen bytes path)))
    (j.heap.amt cs).quantity.toInt = sum ∧ IsMoneyText ((j.heap.amt cs).display false) sum := by
  intro sum
  have hb : sum.natAbs < 100 * 2 ^ 46 := exactSum_small hs _
  have hq := (C114_exact_iff_partial e ho fs maxOpen bytes path j h cs).2 (by
    constructor
    · have : (2 ^ 63 : Int) = 9223372036854775808 := by norm_num
      rw [this]
      show _ ≤ sum
      omega
    · have : (2 ^ 63 : Int) = 9223372036854775808 := by norm_num
      rw [this]
      show sum < _
      omega)
  refine ⟨hq, ?_⟩
  obtain ⟨s, h1, h2, -⟩ := C07_display_exact (j.heap.amt cs) (by rw [hq]; exact hb)
  rw [h2, ← show (j.heap.amt cs).quantity.toInt = sum from hq]
  exact h1

/-- In range. -/
example :
    letI := asciiUnicode
    let text := utf8 "2020-01-01 x\n  A:B  1.10\n  C\n\n2020-01-02 x\n  A  2.20\n  C\n"
    let e : Env := {}
    turnover (e.selected (delivered noFiles 1 text (str "f"))) = 660 ∧
    exactSum (below [str "A"] (e.selected (delivered noFiles 1 text (str "f")))) = 330 := by decide +kernel

/-! ### C115 Budget figures are exact sums -/

theorem worth_exact (es : List Filed) : worth es = BitVec.ofInt 64 (exactSum (es.map Filed.posting)) := by
  rw [← valueOf_exact]
  simp [worth, valueOf, Function.comp_def]

/-- Each figure of a month is the exact sum of the postings it counts if and only if that sum can be stored. -/
theorem C115_exact_iff_partial [Unicode] (e : Env) (ho : ∀ l, (e.mapOrder l).Perm l) (fs : FileSystem) (maxOpen : Nat) (bytes : List UInt8) (path : Str)
    (b : Budget) (h : runParse fs maxOpen bytes path e.budgetHandlers [] = .ok b) (year : Int) (month : Nat) (bm : BudgetMonth)
    (hb : b.get ⟨year, month, 1⟩ = some bm) :
    let es := inMonth year month (e.filed (delivered fs maxOpen bytes path))
    let sum (f : Filed → Bool) := exactSum ((es.filter f).map Filed.posting)
    (∀ cs, cs ≠ [] → let s := sum (fun x => x.type = .envelope ∧ x.Under cs); (bm.envelope.amt cs).quantity.toInt = s ↔ Int64Range s) ∧
    (∀ cs, cs ≠ [] → let s := sum (fun x => x.type = .expense ∧ x.Under cs); (bm.expense.amt cs).quantity.toInt = -s ↔ Int64Range (-s)) ∧
    (let s := sum (fun x => x.type = .income); bm.income.quantity.toInt = -s ↔ Int64Range (-s)) := by
  intro es sum
  obtain ⟨h1, h2, h3⟩ := (C56_command e ho fs maxOpen bytes path b h year month).2 bm hb
  refine ⟨fun cs hc => ?_, fun cs hc => ?_, ?_⟩
  · rw [h1 cs hc, budgeted, worth_exact]; exact ofInt_exact
  · rw [h2 cs hc, spent, worth_exact, ← BitVec.ofInt_neg]; exact ofInt_exact
  · rw [h3, earned, worth_exact, ← BitVec.ofInt_neg]; exact ofInt_exact

/-- Otherwise they are not. -/
theorem C115_budget_exact_false : ¬ ∀ (_U : Unicode) (e : Env) (_ : ∀ l, (e.mapOrder l).Perm l) (fs : FileSystem) (maxOpen : Nat) (bytes : List UInt8)
    (path : Str) (b : Budget), runParse fs maxOpen bytes path e.budgetHandlers [] = .ok b →
    ∀ year month bm, b.get ⟨year, month, 1⟩ = some bm →
      bm.income.quantity.toInt =
        -exactSum (((inMonth year month (e.filed (delivered fs maxOpen bytes path))).filter fun x => x.type = .income).map Filed.posting) := by
  intro h
  let := asciiUnicode
  let text := utf8 "2020-01-01 x\n  Income  92233720368547758.07\n  B\n\n2020-01-02 x\n  Income  92233720368547758.07\n  B\n"
  let e : Env := {}
  have ho : ∀ l, (e.mapOrder l).Perm l := fun l => List.Perm.refl l
  cases hj : runParse noFiles 1 text (str "f") e.budgetHandlers [] with
  | error f =>
    have : (runParse noFiles 1 text (str "f") e.budgetHandlers []).isOk = true := by decide +kernel
    rw [hj] at this
    cases this
  | ok b =>
    cases hb : b.get ⟨2020, 1, 1⟩ with
    | none =>
      have h1 := (C56_command e ho noFiles 1 text (str "f") b hj 2020 1).1.1 hb
      revert h1
      decide +kernel
    | some bm =>
      have h1 := h asciiUnicode e ho noFiles 1 text (str "f") b hj 2020 1 bm hb
      have h2 := (C115_exact_iff_partial e ho noFiles 1 text (str "f") b hj 2020 1 bm hb).2.2.1 h1
      revert h2
      decide +kernel

end Gledger
