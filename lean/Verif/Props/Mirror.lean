/-
C132: exchanging plus and minus in a journal exchanges them in the balance report, and nothing else.
-/
import Verif.Props.Renaming

namespace Gledger

/-! ### Reports that show the same accounts -/

/-- Reports that show the same accounts have the same lines, up to the amounts. -/
theorem same_shown_lines {sz flatten collapse : Bool} {ps ps' : List Posting} (hs : ∀ cs, Shown sz ps' cs ↔ Shown sz ps cs) {text text' : Str}
    (R : BalanceReport sz flatten collapse ps text) (R' : BalanceReport sz flatten collapse ps' text') :
    ∃ ls : List BalanceLine, (∀ l ∈ ls, l.amount = tally (below l.account ps)) ∧
      text = joinLines (ls.map BalanceLine.text) ++ footer (tally ps) ∧
      text' = joinLines (ls.map fun l => BalanceLine.text { l with amount := tally (below l.account ps') }) ++ footer (tally ps') := by
  have hs' : Shown sz ps' = Shown sz ps := funext fun cs => propext (hs cs)
  have uniq : ∀ {L L' : List (List Str)}, L.Pairwise PathLt → L'.Pairwise PathLt → (∀ cs, cs ∈ L ↔ cs ∈ L') → L = L' := fun h1 h2 h3 =>
    pairwise_unique PathLt.irrefl (fun _ _ _ => PathLt.trans) h1 h2 h3
  unfold BalanceReport at R R'
  rw [hs'] at R'
  cases flatten with
  | true =>
    rw [if_pos rfl] at R R'
    obtain ⟨L, a1, a2, rfl⟩ := R
    obtain ⟨L', b1, b2, rfl⟩ := R'
    obtain rfl := uniq a1 b1 fun cs => (a2 cs).trans (b2 cs).symm
    refine ⟨L.map fun cs => ⟨cs, tally (below cs ps), 0, spelledNames cs⟩, by simp, ?_, ?_⟩ <;>
      simp [BalanceLine.text, Function.comp_def]
  | false =>
    rw [if_neg (by simp)] at R R'
    cases collapse with
    | false =>
      rw [if_neg (by simp)] at R R'
      obtain ⟨L, a1, a2, rfl⟩ := R
      obtain ⟨L', b1, b2, rfl⟩ := R'
      obtain rfl := uniq a1 b1 fun cs => (a2 cs).trans (b2 cs).symm
      refine ⟨L.map fun cs => ⟨cs, tally (below cs ps), cs.length - 1, [cs.getLastD []]⟩, by simp, ?_, ?_⟩ <;>
        simp [BalanceLine.text, Function.comp_def, joinPath_single]
    | true =>
      rw [if_pos rfl] at R R'
      obtain ⟨L, one, a1, a0, a2, rfl⟩ := R
      obtain ⟨L', one', b1, b0, b2, rfl⟩ := R'
      have h1 : ∀ cs, Shown sz ps cs → one cs = one' cs := by
        intro cs hs
        have := (a0 cs hs).trans (b0 cs hs).symm
        cases h1 : one cs <;> cases h2 : one' cs <;> simp_all
      obtain rfl : L = L' := uniq a1 b1 fun cs => (a2 cs).trans (Iff.trans ⟨fun ⟨x, y, z⟩ => ⟨x, y, by rw [← h1 cs x]; exact z⟩,
        fun ⟨x, y, z⟩ => ⟨x, y, by rw [h1 cs x]; exact z⟩⟩ (b2 cs).symm)
      refine ⟨L.map fun cs => ⟨cs, tally (below cs ps), levelBy one cs, chainBy one cs⟩, by simp, ?_, ?_⟩
      · simp [BalanceLine.text, Function.comp_def]
      · rw [List.map_map]
        congr 2
        refine List.map_congr_left fun cs hcs => ?_
        have hst : stopsBy one cs = stopsBy one' cs := stopsBy_congr fun i _ => h1 _ ((((a2 cs).1 hcs).1).up (List.take_prefix i cs))
        simp only [Function.comp, BalanceLine.text, levelBy, chainBy, hst]

/-! ### Opposite amounts -/

/-- The opposite amount. -/
def Amount.opposite (a : Amount) : Amount := { a with quantity := -a.quantity }

/-- A number with the opposite sign, as a text. -/
def oppositeText (s : Str) : Str := if s.head? = some '-' then s.tail else '-' :: s

/-- The one posting is the opposite of the other, whatever else may differ. -/
def Posting.Opposes (p' p : Posting) : Prop := p'.components = p.components ∧ p'.amount = p.amount.map Amount.opposite

theorem below_opposes {ps ps' : List Posting} (h : List.Forall₂ Posting.Opposes ps' ps) (cs : List Str) :
    List.Forall₂ Posting.Opposes (below cs ps') (below cs ps) := by
  unfold below
  induction h with
  | nil => exact .nil
  | cons h1 _ ih =>
    rw [List.filter_cons, List.filter_cons, h1.1]
    split
    · exact .cons h1 ih
    · exact ih

theorem tally_opposes {ps ps' : List Posting} (h : List.Forall₂ Posting.Opposes ps' ps) : tally ps' = (tally ps).opposite := by
  have e1 : (ps'.map Posting.value).sum = -(ps.map Posting.value).sum := by
    induction h with
    | nil => rfl
    | @cons p' p ps' ps h1 _ ih =>
      have hv : p'.value = -p.value := by
        unfold Posting.value
        rw [h1.2]
        cases p.amount <;> rfl
      rw [List.map_cons, List.map_cons, List.sum_cons, List.sum_cons, ih, BitVec.neg_add, hv, BitVec.sub_eq_add_neg]
  have e2 : (ps'.filterMap fun p => p.amount.map Amount.commodity) = ps.filterMap fun p => p.amount.map Amount.commodity := by
    clear e1
    induction h with
    | nil => rfl
    | @cons p' p _ _ h1 _ ih =>
      rw [List.filterMap_cons, List.filterMap_cons, ih, h1.2]
      cases p.amount <;> rfl
  unfold tally firstCommodity writtenCommodities Amount.opposite
  rw [e1, e2]

/-- The text of the opposite of a number is the text with the opposite sign. (Except for the least number, which has no opposite.) -/
theorem C132_sign (q : I64) (h0 : q ≠ 0) (hm : q ≠ BitVec.intMin 64) : displayQuantity (-q) = oppositeText (displayQuantity q) := by
  have hn : (-q).toInt = -q.toInt := by
    rw [BitVec.toInt_neg_of_ne_intMin hm]
  have hz : q.toInt ≠ 0 := fun h => h0 (BitVec.eq_of_toInt_eq (by rw [h]; rfl))
  have hd : ∀ n, (renderHundredths n).head? ≠ some '-' := by
    intro n hn
    have h := natDigits_digits (n / 100)
    unfold renderHundredths at hn
    cases hd : natDigits (n / 100) with
    | nil => exact absurd hd h.1
    | cons c s =>
      rw [hd] at hn
      obtain rfl : c = '-' := by simpa using hn
      have := h.2 '-' (by rw [hd]; simp)
      revert this
      decide
  unfold displayQuantity
  rw [hn, Int.natAbs_neg]
  by_cases h : q.toInt < 0
  · rw [if_neg (by omega), if_pos h]
    rfl
  · rw [if_pos (by omega), if_neg h]
    unfold oppositeText
    rw [List.nil_append, if_neg (hd _)]
    rfl

example : displayQuantity (-0) = displayQuantity 0 := rfl

/-- Opposite postings: the same lines with the opposite amounts, and the opposite total. -/
theorem C132_reports {sz flatten collapse : Bool} {ps ps' : List Posting} (h : List.Forall₂ Posting.Opposes ps' ps) {text text' : Str}
    (R : BalanceReport sz flatten collapse ps text) (R' : BalanceReport sz flatten collapse ps' text') :
    ∃ ls : List BalanceLine, (∀ l ∈ ls, l.amount = tally (below l.account ps)) ∧
      text = joinLines (ls.map BalanceLine.text) ++ footer (tally ps) ∧
      text' = joinLines (ls.map fun l => BalanceLine.text { l with amount := l.amount.opposite }) ++ footer (tally ps).opposite := by
  have ht : ∀ cs, tally (below cs ps') = (tally (below cs ps)).opposite := fun cs => tally_opposes (below_opposes h cs)
  have hv : ∀ cs, valueOf (below cs ps') ≠ 0 ↔ valueOf (below cs ps) ≠ 0 := by
    intro cs
    have : valueOf (below cs ps') = -valueOf (below cs ps) := congrArg Amount.quantity (ht cs)
    rw [this]
    exact not_congr BitVec.neg_eq_zero_iff
  have hc : ∀ cs, (∃ p ∈ ps', cs <+: p.components) ↔ ∃ p ∈ ps, cs <+: p.components := by
    intro cs
    constructor
    · rintro ⟨p, hp, hpre⟩
      obtain ⟨b, hb, hr⟩ := forall₂_mem_left h hp
      exact ⟨b, hb, hr.1 ▸ hpre⟩
    · rintro ⟨p, hp, hpre⟩
      obtain ⟨b, hb, hr⟩ := forall₂_mem_left h.flip hp
      exact ⟨b, hb, hr.1 ▸ hpre⟩
  obtain ⟨ls, l1, l2, l3⟩ := same_shown_lines (fun cs => by unfold Shown; simp only [hc, hv]) R R'
  refine ⟨ls, l1, l2, ?_⟩
  rw [l3, tally_opposes h]
  congr 2
  exact List.map_congr_left fun l hl => by rw [ht, l1 l hl]

/-- The report about postings in one commodity does not depend on their order. -/
theorem balanceReport_perm {sz flatten collapse : Bool} {ps ps' : List Posting} {c : Str} (hp : ps.Perm ps') (hc : ∀ p ∈ ps, ∀ a ∈ p.amount, a.commodity = c)
    {text : Str} (R : BalanceReport sz flatten collapse ps text) : BalanceReport sz flatten collapse ps' text := by
  have hs : Shown sz ps = Shown sz ps' := shown_perm hp sz
  have tl : ∀ cs, tally (below cs ps) = tally (below cs ps') := fun cs => tally_one (hp.filter _) fun p h => hc p (List.mem_of_mem_filter h)
  have tr : tally ps = tally ps' := tally_one hp hc
  unfold BalanceReport at R ⊢
  simp only [hs, tl, tr] at R
  exact R

/-! ### Runs -/

section
variable [Unicode] {m m' : Machine} {o o' : Options} {args args' : List Str} {bytes bytes' : List UInt8} {js js' : List (Meant × Str)}
  {filters filters' : List Filter} {admits admits' : Date → Bool} {path path' : Str}

/-- Two runs of `balance` in the same form, on whatever journals, with whatever arguments, where the opposite is posted, in one commodity: the same
lines with the opposite amounts. -/
theorem C132_runs (g : Setting m o args bytes filters admits path) {pg pg' : Page}
    (r : Reading m.fs m.lib m.maxOpen path bytes js (.ok pg)) (hs : ¬ Command.balance.Short filters admits (meanings js))
    (g' : Setting m' o' args' bytes' filters' admits' path') (r' : Reading m'.fs m'.lib m'.maxOpen path' bytes' js' (.ok pg'))
    (hs' : ¬ Command.balance.Short filters' admits' (meanings js')) (h0 : o.showZero = o'.showZero) (h1 : o.flatten = o'.flatten) (h2 : o.collapse = o'.collapse)
    {c : Str} (hc : ∀ p ∈ askedPostings filters admits (meanings js), ∀ a ∈ p.amount, a.commodity = c) {qs : List Posting}
    (hp : (askedPostings filters' admits' (meanings js')).Perm qs) (hq : List.Forall₂ Posting.Opposes qs (askedPostings filters admits (meanings js))) :
    ∃ (ls : List BalanceLine) (total : Amount),
      (∀ l ∈ ls, l.amount = tally (below l.account (askedPostings filters admits (meanings js)))) ∧ total = tally (askedPostings filters admits (meanings js)) ∧
      m.run o .balance args = ⟨joinLines (ls.map BalanceLine.text) ++ footer total, .exit 0⟩ ∧
      m'.run o' .balance args' = ⟨joinLines (ls.map fun l => BalanceLine.text { l with amount := l.amount.opposite }) ++ footer total.opposite, .exit 0⟩ := by
  obtain ⟨d1, d2, _⟩ := C99_parsed r
  obtain ⟨qss, text, q1, q2, q3⟩ := Heard.balance (js := js) ⟨g, d1⟩ (d2 pg rfl) hs
  obtain ⟨d1', d2', _⟩ := C99_parsed r'
  obtain ⟨qss', text', q1', q2', q3'⟩ := Heard.balance (js := js') ⟨g', d1'⟩ (d2' pg' rfl) hs'
  have p1 : qss.flatten.Perm (askedPostings filters admits (meanings js)) := taken_perm q1
  have p2 : qss'.flatten.Perm qs := (show qss'.flatten.Perm (askedPostings filters' admits' (meanings js')) from taken_perm q1').trans hp
  have c1 : ∀ p ∈ qss.flatten, ∀ a ∈ p.amount, a.commodity = c := fun p hp => hc p (p1.subset hp)
  have c2 : ∀ p ∈ qss'.flatten, ∀ a ∈ p.amount, a.commodity = c := by
    intro p hp a ha
    obtain ⟨b, hb, hr⟩ := forall₂_mem_left hq (p2.subset hp)
    rw [hr.2] at ha
    obtain ⟨x, hx, rfl⟩ := Option.mem_map.1 ha
    exact hc b hb x hx
  have k1 : BalanceReport o.showZero o.flatten o.collapse (askedPostings filters admits (meanings js)) text := balanceReport_perm p1 c1 q2
  have k2 : BalanceReport o'.showZero o'.flatten o'.collapse qs text' := balanceReport_perm p2 c2 q2'
  rw [← h0, ← h1, ← h2] at k2
  obtain ⟨ls, e1, e2, e3⟩ := C132_reports hq k1 k2
  refine ⟨ls, _, e1, rfl, ?_, ?_⟩
  · rw [q3, balanceMixes_one (c := c) _ [] (by simpa using c1), e2]
    rfl
  · rw [q3', balanceMixes_one (c := c) _ [] (by simpa using c2), e3]
    rfl

end

/-- A refund, and the purchase. -/
example :
    letI := asciiUnicode
    let a := machineWith (str "f") "2020-01-02 x\n  A:b  $1\n  B  $2.50\n  C\n"
    let b := machineWith (str "f") "2020-01-02 x\n  A:b  $-1\n  B  $-2.50\n  C\n"
    (a.run { file := str "f" } .balance []).stdout =
        str "               $1.00  A\n               $1.00    b\n               $2.50  B\n              $-3.50  C\n--------------------\n                0.00\n" ∧
      (b.run { file := str "f" } .balance []).stdout =
        str "              $-1.00  A\n              $-1.00    b\n              $-2.50  B\n               $3.50  C\n--------------------\n                0.00\n" := by
  decide +kernel

end Gledger
