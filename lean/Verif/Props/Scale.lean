/-
C141: if all amounts are multiplied by the same number, so are all amounts in the balance report, and nothing else changes.
-/
import Mathlib.Data.Nat.Prime.Basic
import Verif.Props.Coins

namespace Gledger

/-! ### Multiples -/

/-- The amount so many times. -/
def Amount.times (k : I64) (a : Amount) : Amount := { a with quantity := k * a.quantity }

/-- The one posting is a multiple of the other, whatever else may differ. -/
def Posting.Times (k : I64) (p' p : Posting) : Prop := p'.components = p.components ∧ p'.amount = p.amount.map (Amount.times k)

/-- The multiple vanishes only if the number does. -/
def KeepsNonzero (k v : I64) : Prop := k * v = 0 → v = 0

/-- This is so for all multiples that fit in 64 bits. -/
theorem keeps_fitting {k v : I64} (hk : k ≠ 0) (h1 : -2 ^ 63 ≤ k.toInt * v.toInt) (h2 : k.toInt * v.toInt < 2 ^ 63) : KeepsNonzero k v := by
  intro h
  have e : (k * v).toInt = k.toInt * v.toInt := by
    rw [BitVec.toInt_mul]
    exact Int.bmod_eq_of_le (by omega) (by omega)
  rw [h] at e
  have hz : k.toInt * v.toInt = 0 := e.symm
  rcases Int.mul_eq_zero.1 hz with h | h
  · exact absurd (BitVec.eq_of_toInt_eq (by rw [h]; rfl)) hk
  · exact BitVec.eq_of_toInt_eq (by rw [h]; rfl)

/-- And for all odd multiples, also if they overflow. -/
theorem keeps_odd {k v : I64} (hk : k.toNat % 2 = 1) : KeepsNonzero k v := by
  intro h
  have e : (k.toNat * v.toNat) % 2 ^ 64 = 0 := by
    have := congrArg BitVec.toNat h
    simpa [BitVec.toNat_mul] using this
  have hd : 2 ^ 64 ∣ v.toNat := (Nat.Coprime.pow_left 64 ((Nat.coprime_two_left).2 (Nat.odd_iff.2 hk))).dvd_of_dvd_mul_left (Nat.dvd_of_mod_eq_zero e)
  exact BitVec.eq_of_toNat_eq (Nat.eq_zero_of_dvd_of_lt hd v.isLt)

section
variable {k : I64} {ps ps' : List Posting}

theorem below_times (h : List.Forall₂ (Posting.Times k) ps' ps) (cs : List Str) : List.Forall₂ (Posting.Times k) (below cs ps') (below cs ps) :=
  forall₂_filter h fun a b hab => by rw [hab.1]

theorem first_times (h : List.Forall₂ (Posting.Times k) ps' ps) : firstCommodity ps' = firstCommodity ps := by
  unfold firstCommodity writtenCommodities
  congr 2
  induction h with
  | nil => rfl
  | @cons p' p _ _ h1 _ ih =>
    rw [List.filterMap_cons, List.filterMap_cons, ih, h1.2]
    cases p.amount <;> rfl

theorem tally_times (h : List.Forall₂ (Posting.Times k) ps' ps) : tally ps' = (tally ps).times k := by
  have e1 : (ps'.map Posting.value).sum = k * (ps.map Posting.value).sum := by
    induction h with
    | nil => simp
    | @cons p' p _ _ h1 _ ih =>
      have hv : p'.value = k * p.value := by
        unfold Posting.value
        rw [h1.2]
        cases p.amount <;> simp [Amount.times]
      rw [List.map_cons, List.map_cons, List.sum_cons, List.sum_cons, ih, hv, BitVec.mul_add]
  unfold tally Amount.times
  rw [first_times h, e1]

/-- Multiples of postings: the same lines in the same order with the multiples of the amounts, provided no sum shown vanishes. -/
theorem C141_reports (h : List.Forall₂ (Posting.Times k) ps' ps) (hk : ∀ cs, KeepsNonzero k (valueOf (below cs ps))) {sz flatten collapse : Bool} {text text' : Str}
    (R : BalanceReport sz flatten collapse ps text) (R' : BalanceReport sz flatten collapse ps' text') :
    ∃ ls : List BalanceLine, (∀ l ∈ ls, l.amount = tally (below l.account ps)) ∧
      text = joinLines (ls.map BalanceLine.text) ++ footer (tally ps) ∧
      text' = joinLines (ls.map fun l => BalanceLine.text { l with amount := l.amount.times k }) ++ footer ((tally ps).times k) := by
  have ht : ∀ cs, tally (below cs ps') = (tally (below cs ps)).times k := fun cs => tally_times (below_times h cs)
  have hv : ∀ cs, valueOf (below cs ps') ≠ 0 ↔ valueOf (below cs ps) ≠ 0 := by
    intro cs
    have e : valueOf (below cs ps') = k * valueOf (below cs ps) := congrArg Amount.quantity (ht cs)
    rw [e]
    exact not_congr ⟨hk cs, fun h => by rw [h]; exact BitVec.mul_zero⟩
  have hc : ∀ cs, (∃ p ∈ ps', cs <+: p.components) ↔ ∃ p ∈ ps, cs <+: p.components := by
    intro cs
    constructor
    · rintro ⟨p, hp, hpre⟩
      obtain ⟨b, hb, hr⟩ := forall₂_mem_left h hp
      exact ⟨b, hb, hr.1 ▸ hpre⟩
    · rintro ⟨p, hp, hpre⟩
      obtain ⟨b, hb, hr⟩ := forall₂_mem_left h.flip hp
      exact ⟨b, hb, hr.1 ▸ hpre⟩
  obtain ⟨ls, l1, l2, l3⟩ := same_shown_lines (fun cs => by unfold Shown; simp only [hc, hv]) R R'
  refine ⟨ls, l1, l2, ?_⟩
  rw [l3, tally_times h]
  congr 2
  exact List.map_congr_left fun l hl => by rw [ht, l1 l hl]

theorem mixes_times (h : List.Forall₂ (Posting.Times k) ps' ps) :
    ∀ {before before' : List Posting}, List.Forall₂ (Posting.Times k) before' before → balanceMixes before' ps' = balanceMixes before ps := by
  induction h with
  | nil => exact fun _ => rfl
  | @cons p' p _ _ h1 _ ih =>
    intro before before' hb
    have hb' : List.Forall₂ (Posting.Times k) (before' ++ [p']) (before ++ [p]) := List.rel_append hb (.cons h1 .nil)
    rw [balanceMixes, balanceMixes, ih hb']
    congr 1
    unfold balanceMix
    rw [h1.2, h1.1]
    cases p.amount with
    | none => rfl
    | some a => simp only [Option.map_some, first_times (below_times hb' _)]; rfl

end

/-! ### How a hundredfold looks -/

/-- A hundred times a number: what were hundredths are units. (Larger numbers are not printed exactly.) -/
theorem C141_hundredfold (q : I64) (h : q.toInt.natAbs < 2 ^ 46) :
    displayQuantity (100 * q) = (if q.toInt < 0 then ['-'] else []) ++ natDigits q.toInt.natAbs ++ str ".00" := by
  have e : (100 * q : I64).toInt = 100 * q.toInt := by
    rw [BitVec.toInt_mul]
    exact Int.bmod_eq_of_le (by change _ ≤ 100 * q.toInt; omega) (by change 100 * q.toInt < _; omega)
  unfold displayQuantity renderHundredths
  rw [e, Int.natAbs_mul, show (100 : Int).natAbs = 100 from rfl, hundredths_exact (by omega), Nat.mul_div_cancel_left _ (by decide), Nat.mul_mod_right]
  have hp : ['.'] ++ pad2 0 = str ".00" := by decide
  by_cases h : q.toInt < 0
  · rw [if_pos (by omega), if_pos h, List.append_assoc, List.append_assoc, hp]
  · rw [if_neg (by omega), if_neg h, List.append_assoc, List.append_assoc, hp]

example : displayQuantity 1250 = str "12.50" ∧ displayQuantity (100 * 1250) = str "1250.00" := by decide +kernel

/-! ### Runs -/

section
variable [Unicode] {m m' : Machine} {o o' : Options} {args args' : List Str} {bytes bytes' : List UInt8} {js js' : List (Meant × Str)}
  {admits admits' : Date → Bool} {path path' : Str} {k : I64}

/-- Two runs of `balance` in the same form without arguments, on whatever journals in any commodities, where the one posts a multiple of what the other
posts: the same warnings, and the same lines in the same order with the multiples of the amounts. -/
theorem C141_runs (g : Setting m o args bytes [] admits path) {pg pg' : Page}
    (r : Reading m.fs m.lib m.maxOpen path bytes js (.ok pg)) (hs : ¬ Command.balance.Short [] admits (meanings js))
    (g' : Setting m' o' args' bytes' [] admits' path') (r' : Reading m'.fs m'.lib m'.maxOpen path' bytes' js' (.ok pg'))
    (hs' : ¬ Command.balance.Short [] admits' (meanings js')) (e0 : o.showZero = o'.showZero) (e1 : o.flatten = o'.flatten) (e2 : o.collapse = o'.collapse)
    (h : List.Forall₂ (Posting.Times k) (askedPostings [] admits' (meanings js')) (askedPostings [] admits (meanings js)))
    (hk : ∀ cs, KeepsNonzero k (valueOf (below cs (askedPostings [] admits (meanings js))))) :
    ∃ (W : Str) (ls : List BalanceLine) (total : Amount), W = balanceMixes [] (askedPostings [] admits (meanings js)) ∧
      (∀ l ∈ ls, l.amount = tally (below l.account (askedPostings [] admits (meanings js)))) ∧ total = tally (askedPostings [] admits (meanings js)) ∧
      m.run o .balance args = ⟨W ++ (joinLines (ls.map BalanceLine.text) ++ footer total), .exit 0⟩ ∧
      m'.run o' .balance args' = ⟨W ++ (joinLines (ls.map fun l => BalanceLine.text { l with amount := l.amount.times k }) ++ footer (total.times k)), .exit 0⟩ := by
  obtain ⟨d1, d2, _⟩ := C99_parsed r
  obtain ⟨qss, text, q1, q2, q3⟩ := Heard.balance (js := js) ⟨g, d1⟩ (d2 pg rfl) hs
  obtain ⟨d1', d2', _⟩ := C99_parsed r'
  obtain ⟨qss', text', q1', q2', q3'⟩ := Heard.balance (js := js') ⟨g', d1'⟩ (d2' pg' rfl) hs'
  have p1 : qss.flatten = askedPostings [] admits (meanings js) := taken_all q1
  have p2 : qss'.flatten = askedPostings [] admits' (meanings js') := taken_all q1'
  rw [p1] at q2 q3
  rw [p2] at q2' q3'
  rw [← e0, ← e1, ← e2] at q2'
  obtain ⟨ls, l1, l2, l3⟩ := C141_reports h hk q2 q2'
  exact ⟨_, ls, _, rfl, l1, rfl, by rw [q3, l2], by rw [q3', mixes_times h .nil, l3]⟩

end

set_option maxRecDepth 100000 in
/-- Three times as much. -/
example :
    letI := asciiUnicode
    let a := machineWith (str "f") "2020-01-02 x\n  A:b  $1\n  B  $2.50\n  C\n"
    let b := machineWith (str "f") "2020-01-02 x\n  A:b  $3\n  B  $7.50\n  C\n"
    (a.run { file := str "f" } .balance []).stdout =
        str "               $1.00  A\n               $1.00    b\n               $2.50  B\n              $-3.50  C\n--------------------\n                0.00\n" ∧
      (b.run { file := str "f" } .balance []).stdout =
        str "               $3.00  A\n               $3.00    b\n               $7.50  B\n             $-10.50  C\n--------------------\n                0.00\n" := by
  decide +kernel

/-- What is posted there, and the number 3 is odd. -/
example :
    let posting (a : String) (q : Int) : Posting := { accountPath := str a, amount := some ⟨str "$", BitVec.ofInt 64 q⟩ }
    List.Forall₂ (Posting.Times 3) [posting "A:b" 300, posting "B" 750, posting "C" (-1050)] [posting "A:b" 100, posting "B" 250, posting "C" (-350)] ∧
      ∀ v, KeepsNonzero 3 v := by
  refine ⟨?_, fun v => keeps_odd (by decide)⟩
  refine .cons ⟨rfl, ?_⟩ (.cons ⟨rfl, ?_⟩ (.cons ⟨rfl, ?_⟩ .nil)) <;> decide +kernel

/-- Four times 2^62 is zero in 64 bits. -/
example : ¬ KeepsNonzero 4 (BitVec.ofNat 64 (2 ^ 62)) := fun h => absurd (h (by decide +kernel)) (by decide +kernel)

set_option maxRecDepth 100000 in
/-- Without the condition this is false: of twice as much, 2^64 hundredths, nothing is shown. -/
theorem C141_overflow_false :
    letI := asciiUnicode
    let four (s : String) := s ++ s ++ s ++ s
    let a := machineWith (str "f") (four "2020-01-02 x\n  A  23058430092136939.52\n  B  -23058430092136939.52\n\n")
    let b := machineWith (str "f") (four "2020-01-02 x\n  A  46116860184273879.04\n  B  -46116860184273879.04\n\n")
    str "  A\n" <:+: (a.run { file := str "f" } .balance []).stdout ∧ ¬ str "  A\n" <:+: (b.run { file := str "f" } .balance []).stdout ∧
      (b.run { file := str "f" } .balance []).ending = .exit 0 := by
  decide +kernel

end Gledger
