import Verif.Spec.Filters
import Mathlib.Data.List.Perm.Basic
import Mathlib.Data.List.Perm.Subperm
import Mathlib.Data.List.Range

namespace Gledger

/-! ### C43 The two filter evaluators agree -/

theorem matchesPosting_iff (f : Filter) (p : Posting) : f.matchesPosting p = true ↔ f.Takes p := by
  unfold Filter.matchesPosting Filter.Takes
  cases f.ftype <;> simp

theorem pick_range {α : Type} (l : List α) (q : α → Bool) : ∀ g : Nat → Bool, (∀ i p, l[i]? = some p → g i = q p) →
    pick l ((List.range l.length).filter g) = l.filter q := by
  unfold pick
  induction l with
  | nil => intro g _; rfl
  | cons a l ih =>
    intro g hg
    rw [List.length_cons, List.range_succ_eq_map, List.filter_cons, List.filter_map]
    have hm : ∀ is : List Nat, List.filterMap (fun i => (a :: l)[i]?) (is.map Nat.succ) = List.filterMap (fun i => l[i]?) is := by
      intro is
      rw [List.filterMap_map]
      rfl
    have h0 : g 0 = q a := hg 0 a rfl
    have ih' := ih (g ∘ Nat.succ) (fun i p hp => hg (i + 1) p (by simpa using hp))
    by_cases hq : q a = true
    · rw [if_pos (by rw [h0]; exact hq), List.filterMap_cons, List.filter_cons, if_pos hq]
      simp only [List.getElem?_cons_zero]
      rw [hm, ih']
    · rw [if_neg (by rw [h0]; exact hq), hm, ih', List.filter_cons, if_neg hq]

theorem how_wide (f : Filter) (t : Transaction) :
    ((f.matchesTransactionHow t).1 = true ∨ (f.matchesTransactionHow t).2.1 = true) ↔ f.Wide t := by
  have hfold : ∀ (ns : List Str) (b : Bool), ns.foldl (fun m n => m || f.regex n) b = true ↔ b = true ∨ ∃ n ∈ ns, f.regex n = true := by
    intro ns
    induction ns with
    | nil => intro b; simp
    | cons n ns ih => intro b; rw [List.foldl_cons, ih]; simp [or_assoc]
  unfold Filter.matchesTransactionHow Filter.Wide
  cases f.ftype with
  | accountName => simp
  | payee => simp
  | note => simp [hfold]

theorem how_postings (f : Filter) (t : Transaction) :
    pick t.postings (f.matchesTransactionHow t).2.2 = t.postings.filter (fun p => f.Takes p) := by
  unfold Filter.matchesTransactionHow
  simp only
  refine pick_range _ _ _ fun i p hp => ?_
  rw [hp, Bool.eq_iff_iff]
  simp [matchesPosting_iff]

theorem how_indices (f : Filter) (t : Transaction) (i : Nat) :
    i ∈ (f.matchesTransactionHow t).2.2 ↔ ∃ p, t.postings[i]? = some p ∧ f.Takes p := by
  unfold Filter.matchesTransactionHow
  simp only [List.mem_filter, List.mem_range]
  constructor
  · rintro ⟨h1, h2⟩
    rw [List.getElem?_eq_getElem h1] at h2
    exact ⟨_, List.getElem?_eq_getElem h1, (matchesPosting_iff _ _).1 h2⟩
  · rintro ⟨p, h1, h2⟩
    refine ⟨(List.getElem?_eq_some_iff.1 h1).1, ?_⟩
    rw [h1]
    exact (matchesPosting_iff _ _).2 h2

/-- `MatchesTransaction` says yes iff `MatchesTransactionHow` reports a payee match, a note match or some posting; the
postings it reports are those with a matching path or comment, each once (positions in increasing order). -/
theorem C43_evaluators_agree (f : Filter) (t : Transaction) :
    let how := f.matchesTransactionHow t
    (f.matchesTransaction t = true ↔ how.1 = true ∨ how.2.1 = true ∨ how.2.2 ≠ []) ∧
    (how.1 = true ↔ f.ftype = .payee ∧ f.regex t.payee = true) ∧
    (how.2.1 = true ↔ f.ftype = .note ∧ ∃ n ∈ t.headerNote :: t.notes, f.regex n = true) ∧
    pick t.postings how.2.2 = t.postings.filter (fun p => f.Takes p) ∧ how.2.2.Pairwise (· < ·) := by
  intro how
  have hw := how_wide f t
  have hne : how.2.2 ≠ [] ↔ ∃ p ∈ t.postings, f.Takes p := by
    constructor
    · intro h
      obtain ⟨i, hi⟩ := List.exists_mem_of_ne_nil _ h
      obtain ⟨p, hp, ht⟩ := (how_indices f t i).1 hi
      exact ⟨p, List.mem_of_getElem? hp, ht⟩
    · rintro ⟨p, hp, ht⟩ h0
      obtain ⟨i, hi⟩ := List.mem_iff_getElem?.1 hp
      have := (how_indices f t i).2 ⟨p, hi, ht⟩
      rw [show (f.matchesTransactionHow t).2.2 = [] from h0] at this
      cases this
  refine ⟨?_, ?_, ?_, how_postings f t, ?_⟩
  · rw [← or_assoc, hw, hne]
    unfold Filter.matchesTransaction Filter.Wide Filter.Takes
    cases f.ftype with
    | accountName => simp
    | payee => simp
    | note =>
      by_cases h1 : f.regex t.headerNote = true
      · simp [h1]
      · by_cases h2 : t.notes.any f.regex = true
        · simp only [h1, h2]
          simp only [List.any_eq_true] at h2
          simp [h2]
        · simp only [h1, h2]
          simp only [List.any_eq_true] at h2
          simp [h1, h2]
  · simp only [how, Filter.matchesTransactionHow]
    cases f.ftype <;> simp
  · rcases hf : f.ftype with _ | _ | _
    · simp [how, Filter.matchesTransactionHow, hf]
    · simp [how, Filter.matchesTransactionHow, hf]
    · have h1 : how.1 = false := by simp [how, Filter.matchesTransactionHow, hf]
      rw [show ((f.matchesTransactionHow t).1 = true ∨ _ ↔ _) = (how.1 = true ∨ how.2.1 = true ↔ f.Wide t) from rfl, h1] at hw
      unfold Filter.Wide at hw
      simpa [hf] using hw
  · exact List.Pairwise.filter _ List.pairwise_lt_range

/-- A note filter on a transaction whose second posting has the matching comment. -/
example :
    let f : Filter := { regex := fun s => s == str "x", ftype := .note }
    let t : Transaction := { postings := [{ accountPath := str "x" }, { accountPath := str "B", comments := [str "y", str "x"] }] }
    f.matchesTransactionHow t = (false, false, [1]) ∧ f.matchesTransaction t = true := by decide

/-! ### C44 Several filters mean any-of, in any order -/

theorem addAllIndices (mp : List Nat) : ∀ acc : List Nat, acc.Nodup →
    (mp.foldl (fun acc i => if acc.contains i then acc else acc ++ [i]) acc).Nodup ∧
    ∀ j, j ∈ mp.foldl (fun acc i => if acc.contains i then acc else acc ++ [i]) acc ↔ j ∈ acc ∨ j ∈ mp := by
  induction mp with
  | nil => intro acc h; exact ⟨h, by simp⟩
  | cons i mp ih =>
    intro acc h
    rw [List.foldl_cons]
    by_cases hi : acc.contains i = true
    · rw [if_pos hi]
      obtain ⟨h1, h2⟩ := ih acc h
      refine ⟨h1, fun j => ?_⟩
      rw [h2]
      simp only [List.contains_iff_mem] at hi
      constructor
      · rintro (h | h)
        · exact Or.inl h
        · exact Or.inr (by simp [h])
      · rintro (h | h)
        · exact Or.inl h
        · rcases List.mem_cons.1 h with rfl | h
          · exact Or.inl hi
          · exact Or.inr h
    · rw [if_neg hi]
      simp only [List.contains_iff_mem] at hi
      have hnd : (acc ++ [i]).Nodup := by
        rw [List.nodup_append]
        refine ⟨h, by simp, ?_⟩
        rintro a ha b hb rfl
        simp only [List.mem_singleton] at hb
        exact hi (hb ▸ ha)
      obtain ⟨h1, h2⟩ := ih _ hnd
      refine ⟨h1, fun j => ?_⟩
      rw [h2]
      simp [or_assoc]

theorem filterLoop_spec (t : Transaction) (fs : List Filter) : ∀ acc : List Nat, acc.Nodup →
    (filterLoop t fs acc = none ∧ ∃ f ∈ fs, f.Wide t) ∨
    ∃ is, filterLoop t fs acc = some is ∧ (¬ ∃ f ∈ fs, f.Wide t) ∧ is.Nodup ∧
      ∀ i, i ∈ is ↔ i ∈ acc ∨ ∃ p, t.postings[i]? = some p ∧ ∃ f ∈ fs, f.Takes p := by
  induction fs with
  | nil => intro acc h; exact Or.inr ⟨acc, rfl, by simp, h, by simp⟩
  | cons f fs ih =>
    intro acc h
    rw [filterLoop]
    by_cases hw : f.Wide t
    · left
      refine ⟨?_, f, by simp, hw⟩
      have := (how_wide f t).2 hw
      simp only
      rw [if_pos (by simpa using this)]
    · have hw' : ¬ ((f.matchesTransactionHow t).1 || (f.matchesTransactionHow t).2.1) = true := by
        intro h0
        exact hw ((how_wide f t).1 (by simpa using h0))
      simp only
      rw [if_neg hw']
      obtain ⟨n1, n2⟩ := addAllIndices (f.matchesTransactionHow t).2.2 acc h
      rcases ih _ n1 with ⟨h1, g, hg, h2⟩ | ⟨is, h1, h2, h3, h4⟩
      · exact Or.inl ⟨h1, g, by simp [hg], h2⟩
      · refine Or.inr ⟨is, h1, ?_, h3, fun i => ?_⟩
        · rintro ⟨g, hg, hg'⟩
          rcases List.mem_cons.1 hg with rfl | hg
          · exact hw hg'
          · exact h2 ⟨g, hg, hg'⟩
        · rw [h4, n2, how_indices]
          constructor
          · rintro ((h | ⟨p, hp, ht⟩) | ⟨p, hp, g, hg, ht⟩)
            · exact Or.inl h
            · exact Or.inr ⟨p, hp, f, by simp, ht⟩
            · exact Or.inr ⟨p, hp, g, by simp [hg], ht⟩
          · rintro (h | ⟨p, hp, g, hg, ht⟩)
            · exact Or.inl (Or.inl h)
            · rcases List.mem_cons.1 hg with rfl | hg
              · exact Or.inl (Or.inr ⟨p, hp, ht⟩)
              · exact Or.inr ⟨p, hp, g, hg, ht⟩

/-- The postings at a set of positions. -/
theorem pick_perm {α : Type} (l : List α) (q : α → Prop) [DecidablePred q] {is : List Nat} (hn : is.Nodup)
    (hi : ∀ i, i ∈ is ↔ ∃ p, l[i]? = some p ∧ q p) : (pick l is).Perm (l.filter fun p => q p) := by
  rw [← pick_range l (fun p => decide (q p)) (fun i => ((l[i]?).map fun p => decide (q p)).getD false) (fun i p hp => by rw [hp]; rfl)]
  unfold pick
  refine List.Perm.filterMap _ ?_
  rw [List.perm_ext_iff_of_nodup hn (List.Nodup.filter _ List.nodup_range)]
  intro i
  rw [hi, List.mem_filter, List.mem_range]
  constructor
  · rintro ⟨p, hp, hq⟩
    refine ⟨(List.getElem?_eq_some_iff.1 hp).1, ?_⟩
    rw [hp]
    simpa using hq
  · rintro ⟨h1, h2⟩
    rw [List.getElem?_eq_getElem h1] at h2
    exact ⟨_, List.getElem?_eq_getElem h1, by simpa using h2⟩

/-- If the whole transaction is selected, its postings are returned in the order in which they are written. -/
theorem C44_whole (e : Env) (t : Transaction) (hr : e.withinDateRange t = .ok true) (hw : WholeSelected e.filters t) :
    e.checkAgainstFilters t = .ok (true, t.postings) ∧ selection e.filters t = t.postings := by
  refine ⟨?_, if_pos hw⟩
  unfold Env.checkAgainstFilters
  rw [hr]
  simp only
  by_cases h0 : e.filters = []
  · rw [if_pos (by simp [h0])]
  · rw [if_neg (by simpa using h0)]
    rcases filterLoop_spec t e.filters [] (by simp) with ⟨h1, h2⟩ | ⟨is, h1, h2, h3, h4⟩
    · rw [h1]
    · exact absurd (hw.resolve_left h0) h2

/-- Within the date range, `checkAgainstFilters` reports a whole match iff there are no filters or some filter matches payee or
notes, and returns exactly the selected postings, in an order of the runtime's choice. -/
theorem C44_any_of (e : Env) (ho : ∀ l, (e.mapOrder l).Perm l) (t : Transaction) (hr : e.withinDateRange t = .ok true) :
    ∃ ps, e.checkAgainstFilters t = .ok (decide (WholeSelected e.filters t), ps) ∧ ps.Perm (selection e.filters t) := by
  unfold Env.checkAgainstFilters
  rw [hr]
  simp only
  by_cases h0 : e.filters = []
  · rw [if_pos (by simp [h0])]
    refine ⟨t.postings, by simp [WholeSelected, h0], ?_⟩
    simp [selection, WholeSelected, h0]
  · rw [if_neg (by simpa using h0)]
    rcases filterLoop_spec t e.filters [] (by simp) with ⟨h1, h2⟩ | ⟨is, h1, h2, h3, h4⟩
    · rw [h1]
      refine ⟨t.postings, by simp [WholeSelected, h2], ?_⟩
      simp [selection, WholeSelected, h2]
    · rw [h1]
      have hw : ¬ WholeSelected e.filters t := by unfold WholeSelected; simp only [h0, false_or]; exact h2
      refine ⟨e.mapOrder (pick t.postings is), by simp only [hw, decide_false], (ho _).trans ?_⟩
      unfold selection
      rw [if_neg hw]
      exact pick_perm _ _ h3 (by simpa using h4)

/-- Outside the date range nothing is selected. -/
theorem C44_out_of_range (e : Env) (t : Transaction) (hr : e.withinDateRange t = .ok false) : e.checkAgainstFilters t = .ok (false, []) := by
  unfold Env.checkAgainstFilters
  rw [hr]

/-- Order and repetition of the filters do not matter. -/
theorem C44_order (fs gs : List Filter) (t : Transaction) (h : ∀ f, f ∈ fs ↔ f ∈ gs) :
    selection fs t = selection gs t ∧ (WholeSelected fs t ↔ WholeSelected gs t) := by
  have hn : fs = [] ↔ gs = [] := by
    rw [List.eq_nil_iff_forall_not_mem, List.eq_nil_iff_forall_not_mem]
    simp [h]
  have hw : WholeSelected fs t ↔ WholeSelected gs t := by
    unfold WholeSelected
    simp [h, hn]
  refine ⟨?_, hw⟩
  unfold selection
  simp only [hw, h]

/-- A further filter never removes a posting. -/
theorem C44_more_filters (fs gs : List Filter) (hf : fs ≠ []) (t : Transaction) : (selection fs t).Sublist (selection (fs ++ gs) t) := by
  unfold selection
  by_cases h1 : WholeSelected fs t
  · have h2 : WholeSelected (fs ++ gs) t := by
      rcases h1 with h1 | ⟨f, h1, h2⟩
      · exact absurd h1 hf
      · exact Or.inr ⟨f, by simp [h1], h2⟩
    rw [if_pos h1, if_pos h2]
  · rw [if_neg h1]
    split
    · exact List.filter_sublist
    · refine List.monotone_filter_right _ fun p hp => ?_
      simp only [decide_eq_true_eq] at hp ⊢
      obtain ⟨f, h3, h4⟩ := hp
      exact ⟨f, by simp [h3], h4⟩

/-- Two filters that each pick one posting of three. -/
example :
    let a : Filter := { regex := fun s => s == str "A", ftype := .accountName }
    let n : Filter := { regex := fun s => s == str "x", ftype := .note }
    let e : Env := { filters := [n, a] }
    let p : Str → List Str → Posting := fun s c => { accountPath := s, comments := c }
    let t : Transaction := { date := ⟨2020, 1, 1⟩, postings := [p (str "A") [], p (str "B") [], p (str "C") [str "x"]] }
    e.withinDateRange t = .ok true ∧ selection e.filters t = [p (str "A") [], p (str "C") [str "x"]] ∧
      e.checkAgainstFilters t = .ok (false, [p (str "C") [str "x"], p (str "A") []]) := by decide

/-! ### C45 Filter arguments -/

/-- A non-empty argument: its first character picks the field, the pattern is the rest (all of it for accounts), ignoring case iff
it has no upper-case letter; it is rejected iff that does not compile. -/
theorem C45_filter_argument [U : Unicode] (R : RegexEngine) (arg : Str) (h : arg ≠ []) :
    let pattern := if (∃ c ∈ argPattern arg, U.isUpper c = true) then argPattern arg else str "(?i)" ++ argPattern arg
    (∀ r, R.compile pattern = some r → newFilter R arg = .ok { regex := r, ftype := argField arg }) ∧
    (R.compile pattern = none → newFilter R arg = .error (.err (.regexp pattern))) := by
  intro pattern
  have hp : smartCase (argPattern arg) = pattern := by
    simp only [pattern]
    unfold smartCase containsUppercase
    by_cases hx : ∃ c ∈ argPattern arg, U.isUpper c = true
    · rw [if_pos hx, if_neg]
      have : (argPattern arg).any U.isUpper = true := by simpa using hx
      simp [this]
    · rw [if_neg hx, if_pos]
      have : (argPattern arg).any U.isUpper = false := by
        rw [← Bool.not_eq_true]
        simpa using hx
      simp [this]
  have key : newFilter R arg = match R.compile (smartCase (argPattern arg)) with
      | none => .error (.err (.regexp (smartCase (argPattern arg))))
      | some r => .ok { regex := r, ftype := argField arg } := by
    cases arg with
    | nil => exact absurd rfl h
    | cons c rest =>
      unfold newFilter argPattern argField
      by_cases h1 : c = '@'
      · simp [h1]; rfl
      · by_cases h2 : c = '='
        · simp [h2]; rfl
        · simp [h1, h2]; rfl
  rw [key, hp]
  exact ⟨fun r hr => by rw [hr], fun hr => by rw [hr]⟩

/-- The empty argument crashes. -/
theorem C45_empty_argument_crashes [Unicode] (R : RegexEngine) : newFilter R [] = .error (.panic .indexOutOfRange) := rfl

/-- Three arguments. -/
example :
    letI := asciiUnicode
    argField (str "@Tesco") = .payee ∧ argPattern (str "@Tesco") = str "Tesco" ∧ argField (str "=note") = .note ∧
    argField (str "assets") = .accountName ∧ argPattern (str "assets") = str "assets" ∧
    (∃ c ∈ str "Tesco", asciiUnicode.isUpper c = true) ∧ ¬ (∃ c ∈ str "assets", asciiUnicode.isUpper c = true) := by decide

end Gledger
