/-
C30-C32: looking up, creating and naming accounts.
-/
import Verif.Lemmas.Paths
import Verif.Props.Balances
import Verif.Props.Dates

namespace Gledger

/-! ### C30 Looking up an account twice gives the same account -/

/-- On every account tree made by any history of calls, looking up names below an account `r` returns the account that is
reached by these names; no account that existed is lost, moved or changed, and none is re-created: the same lookup again
returns the very same account and changes nothing. -/
theorem C30_find_or_create {name : Str} {h : Heap} (m : h.Made name) {bs : List Str} {r : Ref} (hb : h.at bs = some r) {cs : List Str}
    (hcs : cs ≠ []) :
    ∃ x h', h.findOrCreate r cs = some (x, h') ∧ h'.Made name ∧ h'.at bs = some r ∧ h'.walk r cs = some x ∧ h'.at (bs ++ cs) = some x ∧
      (∀ ds y, h.at ds = some y → h'.at ds = some y ∧ (h'.node y).name = (h.node y).name ∧ (h'.node y).path = (h.node y).path ∧
        (h'.node y).amount = (h.node y).amount ∧ (h'.node y).parent = (h.node y).parent ∧ (h'.node y).postings = (h.node y).postings ∧
        (h'.node y).transactions = (h.node y).transactions) ∧
      (∀ ds, h'.Has ds → h.Has ds ∨ ∃ es, es <+: cs ∧ ds = bs ++ es) ∧
      h'.findOrCreate r cs = some (x, h') := by
  obtain ⟨x, h', e1, f1, g1, w1, p1, _⟩ := findOrCreate_spec m.full hb hcs
  have hb' : h'.at bs = some r := g1.walk hb
  refine ⟨x, h', e1, m.find hb e1, hb', ?_, w1, ?_, fun ds hd => (p1 ds).1 hd, ?_⟩
  · simp only [Heap.at] at w1 hb'
    rw [Heap.walk_append, hb'] at w1
    exact w1
  · intro ds y hy
    obtain ⟨o1, o2, _, o4, o5, o6, o7⟩ := g1.old y (m.full.toTree.at_next hy)
    exact ⟨g1.walk hy, o1, o2, o4, o5, o6, o7⟩
  · obtain ⟨x2, h2, e2, _, _, w2, _, s2⟩ := findOrCreate_spec f1 hb' hcs
    have := s2 (has_iff.2 ⟨x, w1⟩)
    subst this
    rw [w1] at w2
    cases w2
    exact e2

/-- Different names lead to different accounts. -/
theorem C30_different {name : Str} {h : Heap} (m : h.Made name) {bs cs ds : List Str} {r x : Ref} (h1 : h.walk r bs = some x)
    (h2 : h.walk r cs = some x) (h3 : h.at ds = some r) : bs = cs ∧ h.at (ds ++ bs) = some x := by
  refine ⟨m.full.toTree.walk_inj h1 h2, ?_⟩
  simp only [Heap.at] at h3 ⊢
  rw [Heap.walk_append, h3]
  exact h1

/-- Journals are such trees. -/
theorem addEach_made (es : List (Transaction × Posting)) : ∀ (j j' : Journal), j.heap.Made rootID → j.addEach es = some j' → j'.heap.Made rootID := by
  induction es with
  | nil => intro j j' m h; cases h; exact m
  | cons e es ih =>
    intro j j' m h
    rw [Journal.addEach, Option.bind_eq_some_iff] at h
    obtain ⟨j1, h1, h2⟩ := h
    unfold Journal.addPosting at h1
    rw [Option.map_eq_some_iff] at h1
    obtain ⟨h3, h4, rfl⟩ := h1
    exact ih _ j' (wireUp_made m h4) h2

/-- Two lookups that share a parent. -/
example :
    let h := newAccount rootID
    let a := (h.findOrCreate 0 [str "A", str "B"]).getD (0, h)
    let b := (a.2.findOrCreate 0 [str "A", str "C"]).getD (0, h)
    let c := (b.2.findOrCreate 1 [str "C"]).getD (0, h)
    (a.1, b.1, c.1, c.2.next) = (2, 3, 3, 4) := by decide

/-! ### C31 An account's path spells its position -/

theorem passed_free {name : Str} (hroot : Reserved name) : ∀ l : List Str, (∀ c ∈ l, ¬ Reserved c) → passed (name :: l) = l := by
  intro l
  induction l using List.reverseRecOn with
  | nil => intro _; rw [passed, ← List.nil_append [name], List.rtakeWhile_concat_neg _ _ _ (by simp [isRootName_iff, hroot])]
  | append_singleton l c ih =>
    intro hl
    rw [passed, ← List.cons_append, List.rtakeWhile_concat_pos _ _ _ (by simp [isRootName_not.2 (hl c (by simp))])]
    congr 1
    exact ih fun d hd => hl d (by simp [hd])

theorem passed_cut (a : Str) : ∀ l : List Str, (∃ c ∈ l, Reserved c) → passed (a :: l) = passed l := by
  intro l
  induction l using List.reverseRecOn with
  | nil => rintro ⟨c, hc, _⟩; cases hc
  | append_singleton l c ih =>
    intro hl
    by_cases hc : Reserved c
    · have : ¬ ((fun n => !isRootName n) c = true) := by simp [isRootName_iff.2 hc]
      rw [passed, passed, ← List.cons_append, List.rtakeWhile_concat_neg (fun n => !isRootName n) _ _ this, List.rtakeWhile_concat_neg (fun n => !isRootName n) _ _ this]
    · have : (fun n => !isRootName n) c = true := by simp [isRootName_not.2 hc]
      rw [passed, passed, ← List.cons_append, List.rtakeWhile_concat_pos (fun n => !isRootName n) _ _ this, List.rtakeWhile_concat_pos (fun n => !isRootName n) _ _ this]
      congr 1
      apply ih
      obtain ⟨d, hd, hr⟩ := hl
      rcases List.mem_append.1 hd with hd | hd
      · exact ⟨d, hd, hr⟩
      · rw [List.mem_singleton] at hd
        exact absurd (hd ▸ hr) hc

theorem passed_spelled (c : Str) : ∀ (bs : List Str) (name : Str), Reserved name → passed (name :: bs) ++ [c] = spelledNames (bs ++ [c]) := by
  intro bs
  induction bs with
  | nil =>
    intro name hr
    rw [passed_free hr [] (by simp)]
    simp [spelledNames]
  | cons b bs ih =>
    intro name hr
    rw [List.cons_append, spelledNames, ← List.cons_append, List.dropLast_concat]
    split
    · rename_i hex
      rw [passed_cut _ _ hex]
      by_cases hb : Reserved b
      · exact ih b hb
      · have hex' : ∃ d ∈ bs, Reserved d := by
          obtain ⟨d, hd, hr'⟩ := hex
          rcases List.mem_cons.1 hd with rfl | hd
          · exact absurd hr' hb
          · exact ⟨d, hd, hr'⟩
        rw [passed_cut _ _ hex', ← passed_cut name _ hex']
        exact ih name hr
    · rename_i hex
      push Not at hex
      rw [passed_free hr _ hex]

theorem spelledNames_free : ∀ cs : List Str, (∀ c ∈ cs.dropLast, ¬ Reserved c) → spelledNames cs = cs := by
  intro cs h
  cases cs with
  | nil => rfl
  | cons c cs =>
    rw [spelledNames, if_neg]
    push Not
    exact h

/-- The `Path` of an account is its names joined with colons, from below the last account above it that has a reserved name. -/
theorem C31_spelled {h : Heap} {name : Str} (hroot : Reserved name) (m : h.Made name) {cs : List Str} {x : Ref} (hx : h.at cs = some x) (hcs : cs ≠ []) :
    (h.node x).path = joinPath (spelledNames cs) := by
  obtain ⟨hs, hn⟩ := m.spelled
  rw [hs cs x hx hcs, hn]
  rcases List.eq_nil_or_concat' cs with rfl | ⟨bs, c, rfl⟩
  · exact absurd rfl hcs
  · have hname : (h.node x).name = c := by
      simp only [Heap.at] at hx
      rw [Heap.walk_snoc, Option.bind_eq_some_iff] at hx
      obtain ⟨p, _, h2⟩ := hx
      exact (m.full.toTree.child_lt h2).2.2.2
    rw [hname, ← List.cons_append, List.dropLast_concat, passed_spelled c bs name hroot]

/-- A name that is reserved in the middle and one at the end. -/
example : spelledNames [str "A", rootID, str "B", str "C"] = [str "B", str "C"] ∧ spelledNames [str "A", str "B", rootID] = [str "A", str "B", rootID] := by
  decide

/-- The `Path` of an account is its names joined with colons, provided that no account on the way has a reserved name. -/
theorem C31_path {h : Heap} {name : Str} (hroot : Reserved name) (m : h.Made name) {cs : List Str} {x : Ref} (hx : h.at cs = some x) (hcs : cs ≠ [])
    (hr : ∀ c ∈ cs.dropLast, ¬ Reserved c) : (h.node x).path = joinPath cs := by
  rw [C31_spelled hroot m hx hcs, spelledNames_free cs hr]

theorem split_joinPath : ∀ cs : List Str, cs ≠ [] → (∀ c ∈ cs, ':' ∉ c) → split ':' (joinPath cs) = cs := by
  intro cs
  induction cs with
  | nil => intro h; exact absurd rfl h
  | cons c cs ih =>
    intro _ hc
    cases cs with
    | nil => rw [joinPath]; exact split_no_sep (hc c (by simp))
    | cons d ds =>
      rw [joinPath.eq_3 c _ (by simp), split_sep _ (hc c (by simp)), ih (by simp) fun e he => hc e (List.mem_cons_of_mem _ he)]

theorem split_clean (s : Str) : ∀ c ∈ split ':' s, ':' ∉ c := by
  induction s with
  | nil => intro c hc; simp [split] at hc; subst hc; simp
  | cons a s ih =>
    intro c hc
    rw [split] at hc
    by_cases ha : a = ':'
    · rw [if_pos ha] at hc
      rcases List.mem_cons.1 hc with rfl | hc
      · simp
      · exact ih c hc
    · rw [if_neg ha] at hc
      cases hs : split ':' s with
      | nil => rw [hs] at hc; simp at hc; subst hc; simpa using fun h => ha h.symm
      | cons w ws =>
        rw [hs] at hc ih
        rcases List.mem_cons.1 hc with rfl | hc
        · have := ih w (by simp)
          simp only [List.mem_cons, not_or]
          exact ⟨fun h => ha h.symm, this⟩
        · exact ih c (List.mem_cons_of_mem _ hc)

/-- In a journal, splitting the path of an account at the colons gives back its components: the lookup of that path finds
this account. -/
theorem C31_split {es : List (Transaction × Posting)} {j : Journal} (h : newJournal.addEach es = some j) {cs : List Str} {x : Ref}
    (hx : j.heap.at cs = some x) (hcs : cs ≠ []) (hr : ∀ c ∈ cs.dropLast, ¬ Reserved c) :
    split ':' (j.heap.node x).path = cs ∧ j.heap.findOrCreate 0 (split ':' (j.heap.node x).path) = some (x, j.heap) := by
  have m : j.heap.Made rootID := addEach_made es newJournal j .new h
  have hall : ∀ e ∈ es, e.2.amount ≠ none := by
    intro e he hn
    rw [C27_no_amount_crashes es ⟨e, he, hn⟩] at h
    cases h
  obtain ⟨j2, h2, h3⟩ := C27_balance_is_sum es hall
  rw [h] at h2
  cases h2
  have hs : split ':' (j.heap.node x).path = cs := by
    rw [C31_path (.inl rfl) m hx hcs hr]
    apply split_joinPath cs hcs
    rcases (h3 cs).1.1 (has_iff.2 ⟨x, hx⟩) with h0 | ⟨e, _, he⟩
    · exact absurd h0 hcs
    · exact fun c hc => split_clean _ c (he.subset hc)
  refine ⟨hs, ?_⟩
  rw [hs]
  obtain ⟨y, h', e1, _, _, w1, _, s1⟩ := findOrCreate_spec m.full (show j.heap.at [] = some 0 from rfl) hcs
  have := s1 (has_iff.2 ⟨x, hx⟩)
  subst this
  rw [List.nil_append, hx] at w1
  cases w1
  exact e1

/-- A name that is reserved cuts the path. -/
theorem C31_reserved_names_cut : ¬ ∀ (h : Heap), h.Made rootID → ∀ (cs : List Str) (x : Ref), h.at cs = some x → cs ≠ [] →
    (h.node x).path = joinPath cs := by
  intro hall
  have m : (((newAccount rootID).findOrCreate 0 [str "A", rootID, str "B"]).getD (0, newAccount rootID)).2.Made rootID :=
    Heap.Made.find (bs := []) (r := 0) (cs := [str "A", rootID, str "B"]) (x := 3) .new rfl rfl
  have := hall _ m [str "A", rootID, str "B"] 3 (by decide) (by simp)
  revert this
  decide

theorem headLoop_spec {h : Heap} {name : Str} (hroot : Reserved name) (m : h.Made name) : ∀ (n : Nat) (c : Str) (cs : List Str) (x : Ref), h.at (c :: cs) = some x →
    cs.length < n → (∀ d ∈ (c :: cs).dropLast, ¬ Reserved d) → h.at [c] = some (h.headLoop n x) := by
  have ht := m.full.toTree
  intro n
  induction n with
  | zero => intro c cs x _ hn; omega
  | succ n ih =>
    intro c cs x hx hn hr
    rw [Heap.headLoop]
    rcases List.eq_nil_or_concat' cs with rfl | ⟨bs, d, rfl⟩
    · have hx' := hx
      simp only [Heap.at, Heap.walk_cons, Option.bind_eq_some_iff] at hx'
      obtain ⟨k, h1, h2⟩ := hx'
      cases h2
      have h0 : isRootName (h.node 0).name = true := by rw [m.spelled.2]; exact isRootName_iff.2 hroot
      rw [(ht.child_lt h1).2.2.1]
      simp only [h0, if_true]
      exact hx
    · rw [← List.cons_append, List.dropLast_concat] at hr
      have hx' := hx
      simp only [Heap.at] at hx'
      rw [← List.cons_append, Heap.walk_snoc, Option.bind_eq_some_iff] at hx'
      obtain ⟨p, h1, h2⟩ := hx'
      have hname : (h.node p).name ∈ c :: bs := by
        rcases List.eq_nil_or_concat' (c :: bs) with h0 | ⟨as, b, h0⟩
        · cases h0
        · rw [h0] at h1 ⊢
          rw [Heap.walk_snoc, Option.bind_eq_some_iff] at h1
          obtain ⟨q, _, h5⟩ := h1
          rw [(ht.child_lt h5).2.2.2]
          simp
      rw [(ht.child_lt h2).2.2.1]
      simp only [isRootName_not.2 (hr _ hname), Bool.false_eq_true, if_false]
      exact ih c bs p h1 (by simp at hn; omega) fun d hd => hr d (List.dropLast_subset _ hd)

/-- The `Head` of an account is the account named by the first component of its path. -/
theorem C31_head {h : Heap} {name : Str} (hroot : Reserved name) (m : h.Made name) {c : Str} {cs : List Str} {x : Ref} (hx : h.at (c :: cs) = some x)
    (hr : ∀ d ∈ (c :: cs).dropLast, ¬ Reserved d) : h.at [c] = some (h.head x) := by
  apply headLoop_spec hroot m _ c cs x hx _ hr
  have := m.full.toTree.length_le hx
  have := m.full.toTree.at_next hx
  simp at *
  omega

example :
    let h := (((newAccount rootID).findOrCreate 0 [str "A", str "B", str "C"]).getD (0, newAccount rootID)).2
    h.head 3 = 1 ∧ h.at [str "A"] = some 1 ∧ h.at [str "A", str "B", str "C"] = some 3 := by decide

example :
    let t : Transaction := {}
    let p (s : String) : Posting := { accountPath := str s, amount := some ⟨[], 1⟩ }
    ((newJournal.addEach [(t, p "A:B:C"), (t, p "A:B:D:E")]).map fun j =>
      ((j.heap.at [str "A", str "B", str "D", str "E"]).map fun x => (j.heap.node x).path)) = some (some (str "A:B:D:E")) := by decide

/-- Below the root of a budget. -/
example :
    let h := (((newAccount budgetRootID).findOrCreate 0 [str "A", str "B"]).getD (0, newAccount budgetRootID)).2
    (h.node 2).path = str "A:B" ∧ h.head 2 = 1 := by decide

/-! ### C32 An account's PathComponents are its own -/

/-- `A:B:C:D` and then `A:B:C:E` are created. -/
def twinsStart : Heap := (((newAccount rootID).findOrCreate 0 [str "A", str "B", str "C", str "D"]).getD (0, newAccount rootID)).2
def twins : Heap := ((twinsStart.findOrCreate 0 [str "A", str "B", str "C", str "E"]).getD (0, newAccount rootID)).2

theorem twins_made : twins.Made rootID ∧ twins.Clean := by
  obtain ⟨x1, h1, e1, f1, g1, _, p1, _⟩ := findOrCreate_spec (newAccount_full rootID) (show (newAccount rootID).at [] = some 0 from rfl)
    (cs := [str "A", str "B", str "C", str "D"]) (by simp)
  obtain ⟨x2, h2, e2, f2, g2, _, p2, _⟩ := findOrCreate_spec f1 (show h1.at [] = some 0 from rfl)
    (cs := [str "A", str "B", str "C", str "E"]) (by simp)
  have ha : twinsStart = h1 := by unfold twinsStart; rw [e1]; rfl
  have hb : twins = h2 := by unfold twins; rw [ha, e2]; rfl
  have m1 : h1.Made rootID := Heap.Made.find (bs := []) .new rfl e1
  have m2 : h2.Made rootID := Heap.Made.find (bs := []) m1 rfl e2
  rw [hb]
  refine ⟨m2, ?_, fun cs hcs c hc => ?_⟩
  · rw [m2.spelled.2]; decide
  · have hroot : ∀ ds, (newAccount rootID).Has ds → ds = [] := by
      intro ds hd
      have := ((newAccount_books rootID).has ds).1 hd
      simpa using this
    have : ∀ es : List Str, es <+: [str "A", str "B", str "C", str "D"] ∨ es <+: [str "A", str "B", str "C", str "E"] → ∀ c ∈ es, ¬ Reserved c := by
      rintro es (he | he) c hc
      all_goals
        have := he.subset hc
        simp only [List.mem_cons, List.not_mem_nil, or_false] at this
        rcases this with rfl | rfl | rfl | rfl <;> decide
    rcases (p2 cs).1 hcs with h3 | ⟨es, h3, h5⟩
    · rcases (p1 cs).1 h3 with h4 | ⟨es, h4, h5⟩
      · rw [hroot cs h4] at hc; cases hc
      · exact this es (Or.inl h4) c (by rw [h5] at hc; exact hc)
    · exact this es (Or.inr h3) c (by rw [h5] at hc; exact hc)

/-- False: creating `A:B:C:E` changes the `PathComponents` of `A:B:C:D`. -/
theorem C32_components_own_false : ¬ ∀ (h : Heap), h.Made rootID → h.Clean → ∀ (cs : List Str) (x : Ref), h.at cs = some x → cs ≠ [] →
    h.slice (h.node x).comps = cs := by
  intro hall
  have := hall twins twins_made.1 twins_made.2 [str "A", str "B", str "C", str "D"] 4 (by decide) (by simp)
  revert this
  decide

/-- True down to the third level, in every tree without reserved names. -/
theorem C32_three_levels_partial {name : Str} {h : Heap} (m : h.Made name) (hc : h.Clean) {cs : List Str} {x : Ref} (hx : h.at cs = some x)
    (hcs : cs ≠ []) (hl : cs.length ≤ 3) : h.slice (h.node x).comps = cs := by
  have s := m.shallow hc
  exact slice_eq.2 ⟨(s.base cs x hx hcs).2.1, s.low cs x hx hcs hl⟩

/-- True at every level as long as no account from the third level on has two children. -/
theorem C32_narrow_partial {name : Str} {h : Heap} (m : h.Made name) (hc : h.Clean) (hn : h.Narrow) {cs : List Str} {x : Ref}
    (hx : h.at cs = some x) (hcs : cs ≠ []) : h.slice (h.node x).comps = cs := by
  obtain ⟨s, o⟩ := m.owned hc hn
  exact slice_eq.2 ⟨(s.base cs x hx hcs).2.1, o.ok cs x hx hcs⟩

/-- A deep and narrow tree. -/
example :
    let h := newAccount rootID
    let a := (h.findOrCreate 0 [str "A", str "B", str "C", str "D", str "E"]).getD (0, h)
    let b := (a.2.findOrCreate 0 [str "A", str "B", str "F", str "G"]).getD (0, h)
    (b.2.slice (b.2.node 5).comps, b.2.slice (b.2.node 7).comps) =
      ([str "A", str "B", str "C", str "D", str "E"], [str "A", str "B", str "F", str "G"]) := by decide

end Gledger
