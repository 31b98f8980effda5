/-
C130: without `--show-zero` the balance command prints what the sums are and nothing else: how they came about does not show.
-/
import Verif.Props.AlikeToo
import Verif.Props.Bare

namespace Gledger

/-! ### Reports -/

section
variable {ps ps' : List Posting}

/-- Accounts that do not sum to zero have postings. -/
theorem valued_posted {cs : List Str} (h : valueOf (below cs ps) ≠ 0) : ∃ p ∈ ps, cs <+: p.components := by
  cases hb : below cs ps with
  | nil => rw [hb] at h; exact absurd rfl h
  | cons p l =>
    have hp : p ∈ below cs ps := by rw [hb]; simp
    unfold below at hp
    obtain ⟨a, b⟩ := List.mem_filter.1 hp
    exact ⟨p, a, of_decide_eq_true b⟩

theorem shown_sums (hr : ∀ p ∈ ps, rootID ∉ p.components) (hv : ∀ cs, cs ≠ [] → valueOf (below cs ps) = valueOf (below cs ps')) {cs : List Str}
    (h : Shown false ps cs) : Shown false ps' cs := by
  by_cases h0 : cs = []
  · subst h0
    exact ⟨Or.inl rfl, Or.inr fun es he hn => absurd (List.prefix_nil.1 he) hn⟩
  · obtain ⟨p, hp, hc⟩ := h.1.resolve_left h0
    have hnz : ∀ es, es <+: cs → es ≠ [] → valueOf (below es ps) ≠ 0 := by
      intro es he hn
      refine (h.2.resolve_left (by simp) es he hn).resolve_right fun hl => hr p hp ?_
      exact (he.trans hc).subset (List.mem_of_getLast? hl)
    refine ⟨Or.inr (valued_posted (ps := ps') ?_), Or.inr fun es he hn => Or.inl ?_⟩
    · rw [← hv cs h0]; exact hnz cs List.prefix_rfl h0
    · rw [← hv es hn]; exact hnz es he hn

theorem shown_valued (hr : ∀ p ∈ ps, rootID ∉ p.components) {cs : List Str} (h : Shown false ps cs) (h0 : cs ≠ []) : valueOf (below cs ps) ≠ 0 := by
  obtain ⟨p, hp, hc⟩ := h.1.resolve_left h0
  refine (h.2.resolve_left (by simp) cs List.prefix_rfl h0).resolve_right fun hl => hr p hp ?_
  exact hc.subset (List.mem_of_getLast? hl)

/-- Two reports are the same if the same accounts are shown with the same amounts, and the totals are equal. -/
theorem balanceReport_same {showZero flatten collapse : Bool} {text text' : Str} (hs : ∀ cs, Shown showZero ps cs ↔ Shown showZero ps' cs)
    (ht : ∀ cs, Shown showZero ps cs → (flatten = true ∨ cs ≠ []) → tally (below cs ps) = tally (below cs ps'))
    (hz : footer (tally ps) = footer (tally ps'))
    (R : BalanceReport showZero flatten collapse ps text) (R' : BalanceReport showZero flatten collapse ps' text') : text = text' := by
  have hs' : Shown showZero ps = Shown showZero ps' := funext fun cs => propext (hs cs)
  suffices h : BalanceReport showZero flatten collapse ps' text from balanceReport_unique h R'
  unfold BalanceReport at R ⊢
  rw [← hs', ← hz]
  split at R
  · obtain ⟨L, a1, a2, rfl⟩ := R
    rw [if_pos (by assumption)]
    refine ⟨L, a1, a2, ?_⟩
    congr 2
    exact List.map_congr_left fun cs hcs => by rw [ht cs ((a2 cs).1 hcs).1 (Or.inl (by assumption))]
  · rw [if_neg (by assumption)]
    split at R
    · obtain ⟨L, one, a1, a0, a2, rfl⟩ := R
      rw [if_pos (by assumption)]
      refine ⟨L, one, a1, a0, a2, ?_⟩
      congr 2
      exact List.map_congr_left fun cs hcs => by rw [ht cs ((a2 cs).1 hcs).1 (Or.inr ((a2 cs).1 hcs).2.1)]
    · obtain ⟨L, a1, a2, rfl⟩ := R
      rw [if_neg (by assumption)]
      refine ⟨L, a1, a2, ?_⟩
      congr 2
      exact List.map_congr_left fun cs hcs => by rw [ht cs ((a2 cs).1 hcs).1 (Or.inr ((a2 cs).1 hcs).2)]

/-- Reports without `--show-zero` of whatever postings are the same if all accounts have the same sums, and those that do not sum to zero the same
commodity. (No account may be called `_root_`: such accounts are never hidden. With `--flat`, a report that shows no account has a line for all of them,
with their first commodity.) -/
theorem C130_reports_partial {flatten collapse : Bool} {text text' : Str} (hr : ∀ p ∈ ps ++ ps', rootID ∉ p.components)
    (hv : ∀ cs, valueOf (below cs ps) = valueOf (below cs ps'))
    (hc : ∀ cs, cs ≠ [] → valueOf (below cs ps) ≠ 0 → firstCommodity (below cs ps) = firstCommodity (below cs ps'))
    (hz : flatten = true → (∀ c, valueOf (below [c] ps) = 0) → firstCommodity ps = firstCommodity ps')
    (R : BalanceReport false flatten collapse ps text) (R' : BalanceReport false flatten collapse ps' text') : text = text' := by
  have h1 : ∀ p ∈ ps, rootID ∉ p.components := fun p hp => hr p (List.mem_append_left _ hp)
  have h2 : ∀ p ∈ ps', rootID ∉ p.components := fun p hp => hr p (List.mem_append_right _ hp)
  have hs : ∀ cs, Shown false ps cs ↔ Shown false ps' cs := fun cs =>
    ⟨shown_sums h1 fun cs _ => hv cs, shown_sums h2 fun cs _ => (hv cs).symm⟩
  have hf : footer (tally ps) = footer (tally ps') := by
    have := hv []
    rw [below_nil, below_nil] at this
    unfold footer
    rw [show (tally ps).quantity = (tally ps').quantity from this]
  have ht : ∀ cs, Shown false ps cs → cs ≠ [] → tally (below cs ps) = tally (below cs ps') := by
    intro cs hsh h0
    unfold tally
    rw [hc cs h0 (shown_valued h1 hsh h0)]
    exact congrArg _ (hv cs)
  by_cases hn : ∃ c, valueOf (below [c] ps) ≠ 0
  · -- some account is shown, so the root has no line
    obtain ⟨c, hn⟩ := hn
    have hsc : Shown false ps [c] := by
      refine ⟨Or.inr (valued_posted hn), Or.inr fun es he h0 => Or.inl ?_⟩
      obtain ⟨x, hx⟩ := List.prefix_cons_iff.1 he |>.resolve_left h0
      rw [hx.1, List.prefix_nil.1 hx.2]
      exact hn
    have hs' : Shown false ps = Shown false ps' := funext fun cs => propext (hs cs)
    suffices h : BalanceReport false flatten collapse ps' text from balanceReport_unique h R'
    unfold BalanceReport at R ⊢
    rw [← hs', ← hf]
    split at R
    · obtain ⟨L, a1, a2, rfl⟩ := R
      rw [if_pos (by assumption)]
      refine ⟨L, a1, a2, ?_⟩
      congr 2
      refine List.map_congr_left fun cs hcs => ?_
      have hb := (a2 cs).1 hcs
      rw [ht cs hb.1 (by rintro rfl; exact hb.2 c hsc)]
    · rw [if_neg (by assumption)]
      split at R
      · obtain ⟨L, one, a1, a0, a2, rfl⟩ := R
        rw [if_pos (by assumption)]
        refine ⟨L, one, a1, a0, a2, ?_⟩
        congr 2
        exact List.map_congr_left fun cs hcs => by rw [ht cs ((a2 cs).1 hcs).1 ((a2 cs).1 hcs).2.1]
      · obtain ⟨L, a1, a2, rfl⟩ := R
        rw [if_neg (by assumption)]
        refine ⟨L, a1, a2, ?_⟩
        congr 2
        exact List.map_congr_left fun cs hcs => by rw [ht cs ((a2 cs).1 hcs).1 ((a2 cs).1 hcs).2]
  · push Not at hn
    refine balanceReport_same hs (fun cs hsh h => ?_) hf R R'
    by_cases h0 : cs = []
    · subst h0
      have := hv []
      rw [below_nil, below_nil] at this ⊢
      unfold tally
      rw [hz (h.resolve_right (by simp)) hn]
      exact congrArg _ this
    · exact ht cs hsh h0

/-- Postings in one commodity: the first one written for an account is this one. -/
theorem first_one {c : Str} (h : ∀ p ∈ ps, ∃ a, p.amount = some a ∧ a.commodity = c) (hn : ps ≠ []) : firstCommodity ps = c := by
  cases ps with
  | nil => exact absurd rfl hn
  | cons p l =>
    have hw := written_one (c := c) (ps := p :: l) fun q hq a ha => by
      obtain ⟨b, hb, hc⟩ := h q hq
      rw [hb] at ha
      cases ha
      exact hc
    unfold firstCommodity
    by_cases h0 : c = []
    · subst h0
      rw [hw]
      cases (writtenCommodities (p :: l)).length <;> rfl
    · obtain ⟨a, ha, hc⟩ := h p (by simp)
      unfold writtenCommodities
      rw [List.filterMap_cons, ha]
      simp [hc, h0]

end

/-! ### Runs -/

section
variable [Unicode] {m m' : Machine} {o o' : Options} {args args' : List Str} {bytes bytes' : List UInt8} {js js' : List (Meant × Str)}
  {filters filters' : List Filter} {admits admits' : Date → Bool} {path path' : Str}

/-- Two runs of `balance` in the same form, without `--show-zero`, on whatever journals, with whatever arguments and flags, print the same if what is
asked for is in one commodity and every account has the same sum in both. (No account asked for may be called `_root_`; with `--flat`, if anything is
asked for in one it must be in the other.) -/
theorem C130_runs_partial (g : Setting m o args bytes filters admits path) {pg pg' : Page} (r : Reading m.fs m.lib m.maxOpen path bytes js (.ok pg))
    (hs : ¬ Command.balance.Short filters admits (meanings js))
    (g' : Setting m' o' args' bytes' filters' admits' path') (r' : Reading m'.fs m'.lib m'.maxOpen path' bytes' js' (.ok pg'))
    (hs' : ¬ Command.balance.Short filters' admits' (meanings js')) (h0 : o.showZero = false) (h0' : o'.showZero = false) (h1 : o.flatten = o'.flatten)
    (h2 : o.collapse = o'.collapse) {c : Str}
    (hc : ∀ p ∈ askedPostings filters admits (meanings js) ++ askedPostings filters' admits' (meanings js'),
      rootID ∉ p.components ∧ ∀ a ∈ p.amount, a.commodity = c)
    (hf : o.flatten = true → (askedPostings filters admits (meanings js) = [] ↔ askedPostings filters' admits' (meanings js') = []))
    (hv : ∀ cs, valueOf (below cs (askedPostings filters admits (meanings js))) = valueOf (below cs (askedPostings filters' admits' (meanings js')))) :
    m.run o .balance args = m'.run o' .balance args' := by
  obtain ⟨d1, d2, _⟩ := C99_parsed r
  obtain ⟨qss, text, q1, q2, q3⟩ := Heard.balance (js := js) ⟨g, d1⟩ (d2 pg rfl) hs
  obtain ⟨d1', d2', _⟩ := C99_parsed r'
  obtain ⟨qss', text', q1', q2', q3'⟩ := Heard.balance (js := js') ⟨g', d1'⟩ (d2' pg' rfl) hs'
  have p1 := taken_perm q1
  have p2 := taken_perm q1'
  have e1 : ∀ p ∈ qss.flatten, rootID ∉ p.components ∧ ∃ a, p.amount = some a ∧ a.commodity = c := by
    intro p hp
    have hp := p1.subset hp
    obtain ⟨a, b⟩ := hc p (List.mem_append_left _ hp)
    cases ha : p.amount with
    | none => exact absurd ⟨p, hp, ha⟩ hs
    | some x => exact ⟨a, x, rfl, b x ha⟩
  have e2 : ∀ p ∈ qss'.flatten, rootID ∉ p.components ∧ ∃ a, p.amount = some a ∧ a.commodity = c := by
    intro p hp
    have hp := p2.subset hp
    obtain ⟨a, b⟩ := hc p (List.mem_append_right _ hp)
    cases ha : p.amount with
    | none => exact absurd ⟨p, hp, ha⟩ hs'
    | some x => exact ⟨a, x, rfl, b x ha⟩
  have hv' : ∀ cs, valueOf (below cs qss.flatten) = valueOf (below cs qss'.flatten) := by
    intro cs
    rw [below_perm p1 cs, below_perm p2 cs]
    exact hv cs
  rw [h0] at q2
  rw [h0', ← h1, ← h2] at q2'
  have hm : ∀ {l : List Posting}, (∀ p ∈ l, rootID ∉ p.components ∧ ∃ a, p.amount = some a ∧ a.commodity = c) → balanceMixes [] l = [] := by
    intro l h
    refine balanceMixes_one (c := c) l [] fun p hp a ha => ?_
    obtain ⟨_, b, hb, hc⟩ := h p (by simpa using hp)
    rw [hb] at ha
    cases ha
    exact hc
  have hb : ∀ {l : List Posting} {cs : List Str}, (∀ p ∈ l, rootID ∉ p.components ∧ ∃ a, p.amount = some a ∧ a.commodity = c) →
      valueOf (below cs l) ≠ 0 → firstCommodity (below cs l) = c := by
    intro l cs h hn
    refine first_one (fun p hp => (h p (List.mem_of_mem_filter hp)).2) fun h0 => hn ?_
    rw [h0]
    rfl
  rw [q3, q3', hm e1, hm e2]
  refine congrArg (fun t => (⟨[] ++ t, .exit 0⟩ : Run)) (C130_reports_partial ?_ hv' ?_ ?_ q2 q2')
  · intro p hp
    rcases List.mem_append.1 hp with hp | hp
    · exact (e1 p hp).1
    · exact (e2 p hp).1
  · intro cs _ hn
    rw [hb e1 hn, hb e2 (by rw [← hv' cs]; exact hn)]
  · intro hfl _
    have hff := hf hfl
    by_cases hn : qss.flatten = []
    · have : qss'.flatten = [] := by
        have h1 : askedPostings filters admits (meanings js) = [] := by
          rw [hn] at p1
          exact List.perm_nil.1 p1.symm
        have h2 := hff.1 h1
        exact List.perm_nil.1 ((show List.Perm qss'.flatten (askedPostings filters' admits' (meanings js')) from p2).trans (by rw [h2]))
      rw [hn, this]
    · have hn' : qss'.flatten ≠ [] := by
        intro h
        rw [h] at p2
        have h2 := hff.2 (List.perm_nil.1 p2.symm)
        exact hn (List.perm_nil.1 ((show List.Perm qss.flatten (askedPostings filters admits (meanings js)) from p1).trans (by rw [h2])))
      rw [first_one (fun p hp => (e1 p hp).2) hn, first_one (fun p hp => (e2 p hp).2) hn']

/-- The one posting takes back the other. -/
def Posting.TakesBack (q p : Posting) : Prop := q.accountPath = p.accountPath ∧ q.value = - p.value

omit [Unicode] in
theorem taken_back_zero {qs rs : List Posting} (h : List.Forall₂ Posting.TakesBack rs qs) (cs : List Str) : valueOf (below cs qs) + valueOf (below cs rs) = 0 := by
  induction h with
  | nil => simp [below, valueOf]
  | @cons r q rs qs h1 _ ih =>
    have hcomp : r.components = q.components := by unfold Posting.components; rw [h1.1]
    unfold below at ih ⊢
    rw [List.filter_cons, List.filter_cons, hcomp]
    split
    · unfold valueOf at ih ⊢
      rw [List.map_cons, List.map_cons, List.sum_cons, List.sum_cons, h1.2]
      have e : ∀ a b c : I64, a + b + (-a + c) = b + c := by intro a b c; rw [BitVec.add_assoc, ← BitVec.add_assoc b, BitVec.add_comm b, BitVec.add_assoc, ← BitVec.add_assoc a, BitVec.add_right_neg]; simp
      rw [e]
      exact ih
    · exact ih

/-- In particular: postings together with postings that take them back leave no trace, wherever they stand. -/
theorem C130_taken_back_partial (g : Setting m o args bytes filters admits path) {pg pg' : Page} (r : Reading m.fs m.lib m.maxOpen path bytes js (.ok pg))
    (hs : ¬ Command.balance.Short filters admits (meanings js))
    (g' : Setting m' o args' bytes' filters' admits' path') (r' : Reading m'.fs m'.lib m'.maxOpen path' bytes' js' (.ok pg'))
    (hs' : ¬ Command.balance.Short filters' admits' (meanings js')) (h0 : o.showZero = false) {c : Str} {qs rs : List Posting}
    (hp : (askedPostings filters' admits' (meanings js')).Perm (askedPostings filters admits (meanings js) ++ (qs ++ rs)))
    (hc : ∀ p ∈ askedPostings filters' admits' (meanings js'), rootID ∉ p.components ∧ ∀ a ∈ p.amount, a.commodity = c)
    (hb : List.Forall₂ Posting.TakesBack rs qs) (hf : o.flatten = true → askedPostings filters admits (meanings js) ≠ []) :
    m'.run o .balance args' = m.run o .balance args := by
  refine (C130_runs_partial g r hs g' r' hs' h0 h0 rfl rfl (c := c) ?_ ?_ ?_).symm
  · intro p h
    rcases List.mem_append.1 h with h | h
    · exact hc p (hp.symm.subset (List.mem_append_left _ h))
    · exact hc p h
  · intro h
    refine iff_of_false (hf h) fun h1 => hf h ?_
    rw [h1] at hp
    exact (List.append_eq_nil_iff.1 (List.perm_nil.1 hp.symm)).1
  · intro cs
    rw [below_perm hp cs, below_append, valueOf_append, below_append, valueOf_append, taken_back_zero hb cs]
    simp

end

/-- With `--show-zero` accounts that sum to zero are shown: the sums are not all. -/
theorem C130_show_zero_false :
    ¬ ∀ (U : Unicode) (m m' : Machine) (o : Options), (@Machine.run U m { o with showZero := true } .balance []).ending = .exit 0 →
      @Machine.run U m { o with showZero := false } .balance [] = @Machine.run U m' { o with showZero := false } .balance [] →
      @Machine.run U m { o with showZero := true } .balance [] = @Machine.run U m' { o with showZero := true } .balance [] := by
  intro h
  have := h asciiUnicode (machineWith (str "f") "2020-01-02 x\n  A  1\n  B\n\n2020-01-03 y\n  C  1\n  D\n\n2020-01-04 z\n  C  -1\n  D\n")
    (machineWith (str "f") "2020-01-02 x\n  A  1\n  B\n") { file := str "f" }
  revert this
  decide +kernel

/-- Nor is an account called `_root_` ever hidden: what is posted to it and taken back leaves a line behind. -/
theorem C130_root_false :
    letI := asciiUnicode
    let a := machineWith (str "f") "2020-01-02 x\n  A  1\n  B\n"
    let b := machineWith (str "f") "2020-01-02 x\n  A  1\n  B\n\n2020-01-03 y\n  A:_root_  1\n  D\n\n2020-01-04 z\n  A:_root_  -1\n  D\n"
    let c := machineWith (str "f") "2020-01-02 x\n  A  1\n  B\n\n2020-01-03 y\n  C  1\n  D\n\n2020-01-04 z\n  C  -1\n  D\n"
    (b.run { file := str "f" } .balance []).ending = .exit 0 ∧
    a.run { file := str "f" } .balance [] ≠ b.run { file := str "f" } .balance [] ∧ a.run { file := str "f" } .balance [] = c.run { file := str "f" } .balance [] := by
  decide +kernel

/-- A transaction taken back later, and money passing through an account. -/
example :
    letI := asciiUnicode
    let a := machineWith (str "f") "2020-01-02 x\n  A:b  $3\n  B\n"
    let b := machineWith (str "f") "2020-01-01 y\n  A:c  $5\n  B:d\n\n2020-01-02 x\n  A:b  $3\n  B\n\n2020-01-04 y taken back\n  A:c  $-5\n  B:d  $5\n"
    let c := machineWith (str "f") "2020-01-02 x\n  C  $3\n  B\n\n2020-01-03 x\n  A:b  $3\n  C\n"
    ∀ o ∈ [({ file := str "f" } : Options), { file := str "f", collapse := true }, { file := str "f", flatten := true }],
      a.run o .balance [] = b.run o .balance [] ∧ a.run o .balance [] = c.run o .balance [] ∧ (a.run o .balance []).ending = .exit 0 := by
  decide +kernel

end Gledger
