/-
C138: the lines of the tree add up.
-/
import Verif.Props.Carry

namespace Gledger

/-- The lines directly below an account (`[]` for the top-level accounts). -/
def linesUnder (cs : List Str) (ls : List BalanceLine) : List BalanceLine := ls.filter fun l => l.account ≠ [] ∧ l.account.dropLast = cs

/-- The numbers on the lines add up: the unindented ones to the total; and each is the sum of what is posted to the account itself and of the numbers on the lines
directly below. -/
structure AddsUp (ps : List Posting) (ls : List BalanceLine) (total : Amount) : Prop where
  top : ((ls.filter fun l => l.indent = 0).map fun l => l.amount.quantity).sum = total.quantity
  each : ∀ l ∈ ls, l.amount.quantity = valueOf (exactly l.account ps) + ((linesUnder l.account ls).map fun l => l.amount.quantity).sum

section
variable {ps : List Posting} {showZero : Bool}

/-- What is not shown below an account that is shown sums to zero. -/
theorem unshown_zero {cs : List Str} (h : cs = [] ∨ Shown showZero ps cs) {k : Str} (hk : ¬ Shown showZero ps (cs ++ [k])) : valueOf (below (cs ++ [k]) ps) = 0 := by
  by_contra hv
  refine hk ⟨Or.inr (valued_posted hv), ?_⟩
  rcases Classical.em (showZero = true) with hz | hz
  · exact Or.inl hz
  · refine Or.inr fun es he hn => ?_
    rcases List.prefix_concat_iff.1 he with rfl | he
    · exact Or.inl hv
    · rcases h with rfl | h
      · exact absurd (List.prefix_nil.1 he) hn
      · exact h.2.resolve_left hz es he hn

theorem children_sum {L : List (List Str)} (hL : L.Nodup) (hm : ∀ cs, cs ∈ L ↔ Shown showZero ps cs ∧ cs ≠ []) {cs : List Str} (h : cs = [] ∨ Shown showZero ps cs) :
    valueOf (below cs ps) = valueOf (exactly cs ps) + ((L.filter fun ds => ds ≠ [] ∧ ds.dropLast = cs).map fun ds => valueOf (below ds ps)).sum := by
  classical
  let ks : List Str := (ps.map fun p => p.components.getD cs.length []).dedup
  have hks : ∀ p ∈ ps, ∀ k, cs ++ [k] <+: p.components → k ∈ ks := by
    intro p hp k hk
    refine List.mem_dedup.2 (List.mem_map.2 ⟨p, hp, ?_⟩)
    obtain ⟨t, ht⟩ := hk
    rw [← ht]
    simp
  rw [below_split cs ks (List.nodup_dedup _) ps hks]
  congr 1
  have e1 : (ks.map fun k => valueOf (below (cs ++ [k]) ps)).sum =
      ((ks.filter fun k => Shown showZero ps (cs ++ [k])).map fun k => valueOf (below (cs ++ [k]) ps)).sum := by
    rw [sum_filter_if (fun k => Shown showZero ps (cs ++ [k]))]
    congr 1
    refine List.map_congr_left fun k _ => ?_
    split
    · rfl
    · rename_i hk
      exact unshown_zero h hk
  rw [e1]
  have hp : ((ks.filter fun k => Shown showZero ps (cs ++ [k])).map fun k => cs ++ [k]).Perm (L.filter fun ds => ds ≠ [] ∧ ds.dropLast = cs) := by
    refine (List.perm_ext_iff_of_nodup ?_ (hL.filter _)).2 fun ds => ?_
    · exact ((List.nodup_dedup _).filter _).map fun a b hab => by simpa using hab
    · constructor
      · intro hd
        obtain ⟨k, hk, rfl⟩ := List.mem_map.1 hd
        obtain ⟨_, hk2⟩ := List.mem_filter.1 hk
        exact List.mem_filter.2 ⟨(hm _).2 ⟨of_decide_eq_true hk2, by simp⟩, by simp⟩
      · intro hd
        obtain ⟨hd1, hd2⟩ := List.mem_filter.1 hd
        obtain ⟨h0, h1⟩ := of_decide_eq_true hd2
        obtain ⟨s1, s2⟩ := (hm ds).1 hd1
        have e : cs ++ [ds.getLast h0] = ds := by rw [← h1]; exact List.dropLast_append_getLast h0
        refine List.mem_map.2 ⟨ds.getLast h0, List.mem_filter.2 ⟨?_, by rw [e]; exact decide_eq_true s1⟩, e⟩
        obtain ⟨p, hp, hpre⟩ := s1.1.resolve_left h0
        exact hks p hp _ (by rw [e]; exact hpre)
  rw [← (hp.map fun ds => valueOf (below ds ps)).sum_eq, List.map_map]
  rfl

/-- The lines of a tree add up, with and without `--show-zero`, whatever is posted. -/
theorem C138_reports {text : Str} (R : BalanceReport showZero false false ps text) :
    ∃ ls : List BalanceLine, text = joinLines (ls.map BalanceLine.text) ++ footer (tally ps) ∧ AddsUp ps ls (tally ps) ∧
      (∀ l ∈ ls, l.indent + 1 = l.account.length ∧ l.names = [l.account.getLastD []] ∧ l.amount = tally (below l.account ps)) ∧
      ∀ cs, cs ≠ [] → (Shown showZero ps cs ↔ ∃ l ∈ ls, l.account = cs) := by
  unfold BalanceReport at R
  simp only [Bool.false_eq_true, if_false] at R
  obtain ⟨L, a1, a2, rfl⟩ := R
  have hL : L.Nodup := List.Pairwise.imp (R := PathLt) (S := (· ≠ ·)) (fun {a b} h e => by subst e; exact PathLt.irrefl _ h) a1
  let line : List Str → BalanceLine := fun cs => ⟨cs, tally (below cs ps), cs.length - 1, [cs.getLastD []]⟩
  have under : ∀ cs, linesUnder cs (L.map line) = (L.filter fun ds => ds ≠ [] ∧ ds.dropLast = cs).map line := by
    intro cs
    unfold linesUnder
    rw [List.filter_map]
    rfl
  refine ⟨L.map line, ?_, ⟨?_, ?_⟩, ?_, ?_⟩
  · rw [List.map_map]
    rfl
  · have := children_sum hL a2 (cs := []) (Or.inl rfl)
    have h0 : valueOf (exactly [] ps) = 0 := by
      unfold exactly
      rw [List.filter_eq_nil_iff.2 fun p _ => by simp [Posting.components, split_nonempty ':' p.accountPath]]
      rfl
    rw [below_nil, h0, zero_add] at this
    rw [show (tally ps).quantity = valueOf ps from rfl, this, List.filter_map, List.map_map]
    congr 1
    have e : L.filter ((fun l : BalanceLine => decide (l.indent = 0)) ∘ line) = L.filter fun ds => ds ≠ [] ∧ ds.dropLast = [] := by
      refine List.filter_congr fun ds hd => ?_
      have hne := ((a2 ds).1 hd).2
      have : 0 < ds.length := List.length_pos_iff.2 hne
      simp only [Function.comp, line]
      rw [decide_eq_decide]
      constructor
      · intro h
        exact ⟨hne, List.length_eq_zero_iff.1 (by rw [List.length_dropLast]; omega)⟩
      · rintro ⟨_, h⟩
        have := congrArg List.length h
        rw [List.length_dropLast] at this
        simpa using this
    rw [e]
    rfl
  · intro l hl
    obtain ⟨cs, hcs, rfl⟩ := List.mem_map.1 hl
    have := children_sum hL a2 (Or.inr ((a2 cs).1 hcs).1)
    rw [under, List.map_map]
    exact this
  · intro l hl
    obtain ⟨cs, hcs, rfl⟩ := List.mem_map.1 hl
    have : 0 < cs.length := List.length_pos_iff.2 ((a2 cs).1 hcs).2
    exact ⟨by show cs.length - 1 + 1 = cs.length; omega, rfl, rfl⟩
  · intro cs h0
    constructor
    · intro h
      exact ⟨line cs, List.mem_map_of_mem ((a2 cs).2 ⟨h, h0⟩), rfl⟩
    · rintro ⟨l, hl, rfl⟩
      obtain ⟨ds, hds, rfl⟩ := List.mem_map.1 hl
      exact ((a2 ds).1 hds).1

variable [Unicode] {m : Machine} {o : Options} {args : List Str} {bytes : List UInt8} {js : List (Meant × Str)} {filters : List Filter} {admits : Date → Bool} {path : Str}

/-- Whatever is in the journal and whatever is asked for, in however many commodities: the numbers of the tree that `balance` prints add up, line by line and to the
total; accounts that are hidden make no difference. -/
theorem C138_runs (g : Setting m o args bytes filters admits path) {pg : Page} (r : Reading m.fs m.lib m.maxOpen path bytes js (.ok pg))
    (hs : ¬ Command.balance.Short filters admits (meanings js)) (h1 : o.flatten = false) (h2 : o.collapse = false) :
    ∃ (w : Str) (ls : List BalanceLine) (total : Amount), m.run o .balance args = ⟨w ++ (joinLines (ls.map BalanceLine.text) ++ footer total), .exit 0⟩ ∧
      AddsUp (askedPostings filters admits (meanings js)) ls total ∧ ∀ l ∈ ls, l.indent + 1 = l.account.length ∧ l.names = [l.account.getLastD []] := by
  obtain ⟨d1, d2, _⟩ := C99_parsed r
  obtain ⟨qss, text, q1, q2, q3⟩ := Heard.balance (js := js) ⟨g, d1⟩ (d2 pg rfl) hs
  have p1 := taken_perm q1
  rw [h1, h2] at q2
  obtain ⟨ls, rfl, a1, a2, _⟩ := C138_reports q2
  refine ⟨_, ls, _, q3, ⟨a1.top, fun l hl => ?_⟩, fun l hl => ⟨(a2 l hl).1, (a2 l hl).2.1⟩⟩
  rw [a1.each l hl]
  congr 1
  exact valueOf_perm (p1.filter _)

end

set_option maxRecDepth 100000

/-- Two levels, an account with postings of its own, one that is hidden, and two commodities. -/
example :
    letI := asciiUnicode
    let a := machineWith (str "f") "2020-01-02 x\n  A:b  $3\n  A:c  1\n  A  0.50\n  B\n\n2020-01-03 y\n  A:d  1\n  C:x\n\n2020-01-03 y\n  A:d  -1\n  C:y\n"
    (a.run { file := str "f" } .balance []) = ⟨(List.replicate 10 (str "unhandled addition of unmatched commodities: '$' and ''\n")).flatten ++ str
"               $4.50  A
               $3.00    b
                1.00    c
              $-4.50  B
--------------------
                0.00
", .exit 0⟩ := by
  decide +kernel

/-- With `--collapse` the numbers need not add up: what is posted to an account itself is not shown if there is just one account below it. -/
theorem C138_collapse_false :
    letI := asciiUnicode
    let a := machineWith (str "f") "2020-01-02 x\n  A:b  3\n  A  1\n  B\n"
    a.run { file := str "f", collapse := true } .balance [] = ⟨str
"                3.00  A:b
               -4.00  B
--------------------
                0.00
", .exit 0⟩ := by
  decide +kernel

end Gledger
