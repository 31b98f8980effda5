/-
C63: the text of the balance command, from the bytes of the journal.
-/
import Verif.Spec.BalanceText
import Verif.Props.Reports

set_option maxRecDepth 100000

namespace Gledger

theorem addPostings_made (t : Transaction) (qs : List Posting) : ∀ (j j' : Journal), j.heap.Made rootID → addPostings t qs j = some j' → j'.heap.Made rootID := by
  induction qs with
  | nil => intro j j' m h; cases h; exact m
  | cons q qs ih =>
    intro j j' m h
    rw [addPostings, Option.bind_eq_some_iff] at h
    obtain ⟨j1, h1, h2⟩ := h
    unfold Journal.addPosting at h1
    rw [Option.map_eq_some_iff] at h1
    obtain ⟨h3, h4, rfl⟩ := h1
    exact ih _ j' (wireUp_made m h4) h2

theorem balance_made (e : Env) (calls : List Call) : ∀ (j j' : Journal), j.heap.Made rootID → e.balanceHandlers.replay calls j = (j', none) →
    j'.heap.Made rootID := by
  induction calls with
  | nil => intro j j' m h; cases h; exact m
  | cons c calls ih =>
    intro j j' m h
    rw [Handlers.replay] at h
    cases c with
    | periodic pt f =>
      simp only [Handlers.call, Env.balanceHandlers, Step.andThen] at h
      exact ih _ j' (show (j.addPeriodicTransaction pt f).heap.Made rootID from m) h
    | normal t f =>
      simp only [Handlers.call, Env.balanceHandlers] at h
      rw [Env.balanceHandler] at h
      split at h
      · cases h
      · rename_i matched qs _
        split at h
        · exact ih j j' m h
        · have mj : (j.addTransaction t f).heap.Made rootID := m
          cases ha : addPostings t qs (j.addTransaction t f) with
          | none => simp only [ha] at h; cases h
          | some j2 =>
            simp only [ha, Step.andThen] at h
            exact ih j2 j' (addPostings_made t qs _ j2 mj ha) h

theorem Heap.Made.root_path {h : Heap} {name : Str} (m : h.Made name) : (h.node 0).path = [] := by
  refine m.induct (P := fun h => (h.node 0).path = []) rfl ?_ ?_
  · intro h p bs c hf hb hc ih
    have hp : p < h.next := hf.toTree.at_next hb
    obtain ⟨_, n, _⟩ := newChild_spec h p c hp
    exact ((n.grows hf hp hc).old 0 hf.root.1).2.1.trans ih
  · intro h h' hf s ih
    rw [(s.node 0).2.1]; exact ih

/-- The tree that the balance command reports on. -/
theorem books_tree {h : Heap} {ps : List Posting} (m : h.Made rootID) (b : h.Books ps) (showZero : Bool) :
    (prepareBalance showZero h).Linked ∧ (∀ cs, (prepareBalance showZero h).Has cs ↔ Shown showZero ps cs) ∧
      (∀ cs x, (prepareBalance showZero h).at cs = some x → ((prepareBalance showZero h).node x).amount = tally (below cs ps)) ∧
      ∀ cs x, (prepareBalance showZero h).at cs = some x → ((prepareBalance showZero h).node x).path = joinPath (spelledNames cs) := by
  have back : ∀ cs x, (prepareBalance showZero h).at cs = some x → h.at cs = some x := by
    intro cs x hx
    cases showZero with
    | true => exact hx
    | false => exact ((C34_shown m.full.toLinked cs x).1 hx).1
  have same : ∀ x, ((prepareBalance showZero h).node x).amount = (h.node x).amount ∧ ((prepareBalance showZero h).node x).path = (h.node x).path := by
    intro x
    cases showZero with
    | true => exact ⟨rfl, rfl⟩
    | false =>
      obtain ⟨_, h2, h3, _⟩ := C34_unchanged m.full.toLinked x
      exact ⟨h3, h2⟩
  have hamt : ∀ cs, (h.amt cs).quantity = valueOf (below cs (ps)) := by
    intro cs; rw [b.amt]; rfl
  have hhas : ∀ cs, h.Has cs ↔ cs = [] ∨ ∃ q ∈ ps, cs <+: q.components := by
    intro cs; exact b.has cs
  refine ⟨(prepareBalance_linked m.full.toLinked showZero).1, ?_, ?_, ?_⟩
  · intro cs
    cases showZero with
    | true =>
      show h.Has cs ↔ _
      rw [hhas]
      unfold Shown
      simp
    | false =>
      unfold Shown
      rw [has_iff, ← hhas, has_iff]
      constructor
      · rintro ⟨x, hx⟩
        obtain ⟨h1, h2⟩ := (C34_shown m.full.toLinked cs x).1 hx
        exact ⟨⟨x, h1⟩, Or.inr fun es h3 h4 => by rw [← hamt]; exact h2 es h3 h4⟩
      · rintro ⟨⟨x, h1⟩, h2⟩
        refine ⟨x, (C34_shown m.full.toLinked cs x).2 ⟨h1, fun es h3 h4 => ?_⟩⟩
        rw [hamt]
        exact h2.resolve_left (by simp) es h3 h4
  · intro cs x hx
    rw [(same x).1, ← Heap.amt_at (back cs x hx), b.amt]
  · intro cs x hx
    have hx' := back cs x hx
    rw [(same x).2]
    by_cases hcs : cs = []
    · subst hcs
      cases hx'
      exact m.root_path
    · exact C31_spelled (.inl rfl) m hx' hcs

theorem footer_eq (hp : Heap) (body : Str) : body ++ str "\n" ++ str "--------------------" ++ str "\n" ++ padLeft 20 ((hp.node 0).amount.display false) ++ str "\n" =
    body ++ footer (hp.node 0).amount := by
  unfold footer
  simp only [List.append_assoc]
  congr 1

theorem below_nil (ps : List Posting) : below [] ps = ps := by simp [below]

theorem leaf_iff {h : Heap} (ht : h.Tree) {cs : List Str} {x : Ref} (hx : h.at cs = some x) : h.Leaf x ↔ ∀ c, ¬ h.Has (cs ++ [c]) := by
  unfold Heap.Leaf Heap.Has
  simp only [Heap.at] at hx ⊢
  simp only [Heap.walk_snoc, hx, Option.bind_some]
  constructor
  · intro hn c
    have : (h.node x).children = [] := by simpa using hn
    simp [Heap.child, this, lookupKey]
  · intro hn
    cases hch : (h.node x).children with
    | nil => rfl
    | cons kc l =>
      exfalso
      apply hn kc.1
      rw [ht.child_iff.2 (show (kc.1, kc.2) ∈ (h.node x).children by rw [hch]; simp)]
      rfl

theorem single_iff {h : Heap} (ht : h.Tree) {cs : List Str} {x : Ref} (hx : h.at cs = some x) : h.Single cs ↔ OneBelow h.Has cs := by
  unfold Heap.Single OneBelow
  rw [hx]
  have hc : ∀ c, h.Has (cs ++ [c]) ↔ ∃ k, (c, k) ∈ (h.node x).children := by
    intro c
    rw [has_iff]
    simp only [Heap.at] at hx ⊢
    simp only [Heap.walk_snoc, hx, Option.bind_some, ht.child_iff]
  simp only [hc, Option.map_some, Option.some.injEq]
  have hk := ht.keys x
  generalize (h.node x).children = l at hk
  constructor
  · intro h1
    obtain ⟨kc, rfl⟩ := List.length_eq_one_iff.1 h1
    refine ⟨kc.1, ⟨kc.2, by simp⟩, ?_⟩
    rintro d ⟨k, hk⟩
    rw [List.mem_singleton] at hk
    rw [← hk]
  · rintro ⟨c, ⟨k, h1⟩, h2⟩
    cases l with
    | nil => cases h1
    | cons a l =>
      cases l with
      | nil => rfl
      | cons b l =>
        exfalso
        have e1 := h2 a.1 ⟨a.2, by simp⟩
        have e2 := h2 b.1 ⟨b.2, by simp⟩
        simp [e1, e2] at hk

/-- The lines of a listing depend on the paths only. -/
theorem listing_paths {h : Heap} {P : List Str → Ref → Prop} {Q : List Str → Prop} {L : List (List Str × Ref)} (hL : h.Listing P L)
    (hQ : ∀ cs, (∃ x, h.at cs = some x ∧ P cs x) ↔ Q cs) {f : List Str × Ref → Str} {g : List Str → Str}
    (hfg : ∀ cs x, h.at cs = some x → f (cs, x) = g cs) :
    (L.map Prod.fst).Pairwise PathLt ∧ (∀ cs, cs ∈ L.map Prod.fst ↔ Q cs) ∧ L.map f = (L.map Prod.fst).map g := by
  refine ⟨List.pairwise_map.2 hL.sorted, ?_, ?_⟩
  · intro cs
    rw [← hQ, List.mem_map]
    constructor
    · rintro ⟨⟨a, x⟩, h1, rfl⟩; exact ⟨x, (hL.mem a x).1 h1⟩
    · rintro ⟨x, h1⟩; exact ⟨(cs, x), (hL.mem cs x).2 h1, rfl⟩
  · rw [List.map_map]
    apply List.map_congr_left
    rintro ⟨cs, x⟩ ha
    exact hfg cs x ((hL.mem cs x).1 ha).1

/-! ### C63 The text of the balance command -/

/-- What is reported about an account tree that books these postings. -/
theorem balance_report {h : Heap} {ps : List Posting} (m : h.Made rootID) (b : h.Books ps) (showZero flatten collapse : Bool) :
    BalanceReport showZero flatten collapse ps (report (prepareBalance showZero h) flatten collapse) := by
  obtain ⟨hl, h3, h4, h6⟩ := books_tree m b showZero
  generalize prepareBalance showZero h = hp at hl h3 h4 h6
  unfold BalanceReport
  cases flatten with
  | true =>
    rw [if_pos rfl]
    obtain ⟨L, hL, ht⟩ := C38_flat_report hl.toTree reportPrepender reportPrepender_ne
    obtain ⟨g1, g2, g3⟩ := listing_paths hL (Q := fun cs => Shown showZero (ps) cs ∧
          ∀ c, ¬ Shown showZero (ps) (cs ++ [c]))
        (f := fun a => reportPrepender (hp.node a.2) ++ (hp.node a.2).path) (g := fun cs => amountColumn (tally (below cs ps)) ++ joinPath (spelledNames cs))
        (by
          intro cs
          simp only [← h3]
          constructor
          · rintro ⟨x, hx, hlf⟩; exact ⟨has_iff.2 ⟨x, hx⟩, (leaf_iff hl.toTree hx).1 hlf⟩
          · rintro ⟨hh, hlf⟩; obtain ⟨x, hx⟩ := has_iff.1 hh; exact ⟨x, hx, (leaf_iff hl.toTree hx).2 hlf⟩)
        (by
          intro cs x hx
          simp only [reportPrepender, padLeft, amountColumn, rightAligned, Amount.display, if_true, h4 cs x hx, h6 cs x hx])
    refine ⟨L.map Prod.fst, g1, g2, ?_⟩
    rw [report]
    simp only [if_true]
    rw [footer_eq, ht, g3, h4 [] 0 rfl, below_nil]
  | false =>
  rw [if_neg (by simp)]
  cases collapse with
  | false =>
    rw [if_neg (by simp)]
    obtain ⟨L, hL, ht⟩ := C39_tree_report hl.toTree reportPrepender reportPrepender_ne
    obtain ⟨g1, g2, g3⟩ := listing_paths hL (Q := fun cs => Shown showZero (ps) cs ∧ cs ≠ [])
        (f := fun a => reportPrepender (hp.node a.2) ++ List.replicate (2 * (a.1.length - 1)) ' ' ++ a.1.getLastD [])
        (g := fun cs => amountColumn (tally (below cs ps)) ++ List.replicate (2 * (cs.length - 1)) ' ' ++ cs.getLastD [])
        (by
          intro cs
          rw [← h3, has_iff]
          exact ⟨fun ⟨x, hx, hn⟩ => ⟨⟨x, hx⟩, hn⟩, fun ⟨⟨x, hx⟩, hn⟩ => ⟨x, hx, hn⟩⟩)
        (by
          intro cs x hx
          simp only [reportPrepender, padLeft, amountColumn, rightAligned, Amount.display, if_true, h4 cs x hx])
    refine ⟨L.map Prod.fst, g1, g2, ?_⟩
    rw [report]
    simp only [Bool.false_eq_true, if_false]
    rw [footer_eq, ht, g3, h4 [] 0 rfl, below_nil]
  | true =>
    rw [if_pos rfl]
    obtain ⟨L, hL, ht⟩ := C40_collapsed_report hl.toTree reportPrepender reportPrepender_ne
    have hstops : ∀ cs, hp.stops cs = stopsBy (fun cs => hp.Single cs) cs := by
      intro cs
      unfold Heap.stops stopsBy
      apply List.filter_congr
      intro i _
      simp
    have hS : hp.Has = Shown showZero (ps) := funext fun cs => propext (h3 cs)
    obtain ⟨g1, g2, g3⟩ := listing_paths hL (Q := fun cs => Shown showZero (ps) cs ∧ cs ≠ [] ∧ decide (hp.Single cs) = false)
        (f := fun a => reportPrepender (hp.node a.2) ++ List.replicate (2 * hp.level a.1) ' ' ++ joinPath (hp.chain a.1))
        (g := fun cs => amountColumn (tally (below cs ps)) ++ List.replicate (2 * levelBy (fun cs => hp.Single cs) cs) ' ' ++
          joinPath (chainBy (fun cs => hp.Single cs) cs))
        (by
          intro cs
          rw [← h3, has_iff, decide_eq_false_iff_not]
          exact ⟨fun ⟨x, hx, hn⟩ => ⟨⟨x, hx⟩, hn⟩, fun ⟨⟨x, hx⟩, hn⟩ => ⟨x, hx, hn⟩⟩)
        (by
          intro cs x hx
          simp only [reportPrepender, padLeft, amountColumn, rightAligned, Amount.display, if_true, h4 cs x hx, Heap.level, Heap.chain, levelBy, chainBy, hstops])
    refine ⟨L.map Prod.fst, fun cs => hp.Single cs, g1, ?_, g2, ?_⟩
    · intro cs hs
      rw [← h3] at hs
      obtain ⟨x, hx⟩ := has_iff.1 hs
      rw [decide_eq_true_eq, ← hS]
      exact single_iff hl.toTree hx
    · rw [report]
      simp only [Bool.false_eq_true, if_false]
      rw [footer_eq, ht, g3, h4 [] 0 rfl, below_nil]

theorem below_mem {cs : List Str} {ps : List Posting} {p : Posting} (h : p ∈ below cs ps) : p ∈ ps := List.mem_of_mem_filter h

theorem shown_perm {ps qs : List Posting} (h : ps.Perm qs) (showZero : Bool) : Shown showZero ps = Shown showZero qs := by
  funext cs
  unfold Shown
  have hv : ∀ es, valueOf (below es ps) = valueOf (below es qs) := fun es => below_perm h es
  simp only [hv, h.mem_iff]

/-- Whenever the balance command prints a report, it is the one about the selected postings, taken in some order. -/
theorem balanceCmd_report [Unicode] {e : Env} (ho : ∀ l, (e.mapOrder l).Perm l) {showZero flatten collapse : Bool} {fs : FileSystem} {maxOpen : Nat}
    {bytes : List UInt8} {path text : Str} (h : balanceCmd e showZero flatten collapse fs maxOpen bytes path = .ok text) :
    ∃ ps : List Posting, ps.Perm (e.selected (delivered fs maxOpen bytes path)) ∧ BalanceReport showZero flatten collapse ps text := by
  unfold balanceCmd at h
  cases hj : runParse fs maxOpen bytes path e.balanceHandlers newJournal with
  | error f => rw [hj] at h; cases h
  | ok j =>
    rw [hj] at h
    cases h
    have h' := (runParse_ok (v := j)).1 (by
      unfold runParse at hj
      split at hj
      · rename_i st hst
        cases hj
        exact ⟨st, hst, rfl⟩
      · cases hj)
    obtain ⟨ps, b, p⟩ := balance_replay e ho _ newJournal j [] (newAccount_books _) h'.2
    rw [List.nil_append] at b
    exact ⟨ps, p, balance_report (balance_made e _ newJournal j .new h'.2) b _ _ _⟩

/-- `balance --flat`: whenever the command prints a report, there is a line for every shown account that has none shown below
it, in alphabetical order: the amount of the selected postings below it and its path, which begins after the last reserved name above the account.
The commodities are the first written in some order of the selected postings. -/
theorem C63_flat [Unicode] (e : Env) (ho : ∀ l, (e.mapOrder l).Perm l) (showZero collapse : Bool) (fs : FileSystem) (maxOpen : Nat)
    (bytes : List UInt8) (path text : Str) (h : balanceCmd e showZero true collapse fs maxOpen bytes path = .ok text) :
    ∃ (ps : List Posting) (L : List (List Str)), ps.Perm (e.selected (delivered fs maxOpen bytes path)) ∧ L.Pairwise PathLt ∧
      (∀ cs, cs ∈ L ↔ Shown showZero (e.selected (delivered fs maxOpen bytes path)) cs ∧
        ∀ c, ¬ Shown showZero (e.selected (delivered fs maxOpen bytes path)) (cs ++ [c])) ∧
      text = joinLines (L.map fun cs => amountColumn (tally (below cs ps)) ++ joinPath (spelledNames cs)) ++ footer (tally ps) := by
  obtain ⟨ps, h1, R⟩ := balanceCmd_report ho h
  rw [BalanceReport, if_pos rfl, shown_perm h1] at R
  obtain ⟨L, g1, g2, g3⟩ := R
  exact ⟨ps, L, h1, g1, g2, g3⟩

/-- `balance`: a line for every shown account below the root, indented by its depth. -/
theorem C63_tree [Unicode] (e : Env) (ho : ∀ l, (e.mapOrder l).Perm l) (showZero : Bool) (fs : FileSystem) (maxOpen : Nat)
    (bytes : List UInt8) (path text : Str) (h : balanceCmd e showZero false false fs maxOpen bytes path = .ok text) :
    ∃ (ps : List Posting) (L : List (List Str)), ps.Perm (e.selected (delivered fs maxOpen bytes path)) ∧ L.Pairwise PathLt ∧
      (∀ cs, cs ∈ L ↔ Shown showZero (e.selected (delivered fs maxOpen bytes path)) cs ∧ cs ≠ []) ∧
      text = joinLines (L.map fun cs => amountColumn (tally (below cs ps)) ++ List.replicate (2 * (cs.length - 1)) ' ' ++ cs.getLastD []) ++
        footer (tally ps) := by
  obtain ⟨ps, h1, R⟩ := balanceCmd_report ho h
  rw [BalanceReport, if_neg (by simp), if_neg (by simp), shown_perm h1] at R
  obtain ⟨L, g1, g2, g3⟩ := R
  exact ⟨ps, L, h1, g1, g2, g3⟩

/-- `balance --collapse`: a line for every shown account below the root that does not have exactly one shown below it, with the
names of the chain that ends in it. -/
theorem C63_collapsed [Unicode] (e : Env) (ho : ∀ l, (e.mapOrder l).Perm l) (showZero : Bool) (fs : FileSystem) (maxOpen : Nat)
    (bytes : List UInt8) (path text : Str) (h : balanceCmd e showZero false true fs maxOpen bytes path = .ok text) :
    ∃ (ps : List Posting) (L : List (List Str)) (one : List Str → Bool), ps.Perm (e.selected (delivered fs maxOpen bytes path)) ∧ L.Pairwise PathLt ∧
      (∀ cs, Shown showZero (e.selected (delivered fs maxOpen bytes path)) cs →
        (one cs = true ↔ OneBelow (Shown showZero (e.selected (delivered fs maxOpen bytes path))) cs)) ∧
      (∀ cs, cs ∈ L ↔ Shown showZero (e.selected (delivered fs maxOpen bytes path)) cs ∧ cs ≠ [] ∧ one cs = false) ∧
      text = joinLines (L.map fun cs => amountColumn (tally (below cs ps)) ++ List.replicate (2 * levelBy one cs) ' ' ++ joinPath (chainBy one cs)) ++
        footer (tally ps) := by
  obtain ⟨ps, h1, R⟩ := balanceCmd_report ho h
  rw [BalanceReport, if_neg (by simp), if_pos rfl, shown_perm h1] at R
  obtain ⟨L, one, g0, g1, g2, g3⟩ := R
  exact ⟨ps, L, one, h1, g0, g1, g2, g3⟩

/-- The three forms for a journal with a filter-free run, a hidden zero account and a chain. -/
example :
    letI := asciiUnicode
    let j := utf8 "2020-01-01 x\n  Z  1\n  A:B:C  2\n  A:B:D  4\n  E\n\n2020-01-02 y\n  Z  -1\n  E  1\n"
    (balanceCmd {} false true false noFiles 1 j (str "f")).toOption =
      some (str "                2.00  A:B:C\n                4.00  A:B:D\n               -6.00  E\n--------------------\n                0.00\n") ∧
    (balanceCmd {} false false true noFiles 1 j (str "f")).toOption =
      some (str "                6.00  A:B\n                2.00    C\n                4.00    D\n               -6.00  E\n--------------------\n                0.00\n") := by
  decide +kernel

end Gledger
