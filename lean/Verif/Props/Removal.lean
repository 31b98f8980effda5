/-
C34-C37: hiding, pruning, removing and finding accounts. The order of the list of children of an account stands for an
arbitrary iteration order of the map, so statements about all heaps are statements about all orders.
-/
import Verif.Lemmas.Removal
import Verif.Props.Accounts

namespace Gledger

/-! ### C37 Finding accounts visits every account once -/

/-- `FindAccounts` returns each account of the tree at `r` that satisfies the matcher once, and nothing else. -/
theorem C37_find_accounts {h : Heap} (ht : h.Tree) {r : Ref} (hr : r < h.next) (m : Node → Bool) :
    (h.findAccounts r m).Nodup ∧ ∀ x, x ∈ h.findAccounts r m ↔ (∃ cs, h.walk r cs = some x) ∧ m (h.node x) = true :=
  findAccounts_spec ht hr m

/-- `Leaves` returns each account without children once. -/
theorem C37_leaves {h : Heap} (ht : h.Tree) {r : Ref} (hr : r < h.next) :
    (h.leaves r).Nodup ∧ ∀ x, x ∈ h.leaves r ↔ ∃ cs, h.walk r cs = some x ∧ ∀ c, h.walk r (cs ++ [c]) = none := by
  unfold Heap.leaves
  obtain ⟨h1, h2⟩ := findAccounts_spec ht hr fun a => a.children.length = 0
  refine ⟨h1, fun x => ?_⟩
  rw [h2]
  have key : ∀ cs, h.walk r cs = some x → ((∀ c, h.walk r (cs ++ [c]) = none) ↔ (h.node x).children = []) := by
    intro cs hc
    simp only [Heap.walk_snoc, hc, Option.bind_some]
    constructor
    · intro hn
      cases hch : (h.node x).children with
      | nil => rfl
      | cons kc l =>
        have := hn kc.1
        rw [ht.child_iff.2 (show (kc.1, kc.2) ∈ (h.node x).children by rw [hch]; simp)] at this
        cases this
    · intro hn c
      unfold Heap.child
      rw [hn]
      rfl
  constructor
  · rintro ⟨⟨cs, h3⟩, h4⟩
    exact ⟨cs, h3, (key cs h3).2 (by simpa using h4)⟩
  · rintro ⟨cs, h3, h4⟩
    exact ⟨⟨cs, h3⟩, by simpa using (key cs h3).1 h4⟩

/-! ### C34 Hiding zero accounts -/

/-- After removing empty children an account is still there iff neither it nor an account on the way to it has a zero amount
(accounts named `_root_` are never removed). -/
theorem C34_shown {h : Heap} (hl : h.Linked) (cs : List Str) (x : Ref) :
    (prepareBalance false h).at cs = some x ↔
      h.at cs = some x ∧ ∀ es, es <+: cs → es ≠ [] → (h.amt es).quantity ≠ 0 ∨ es.getLast? = some rootID := by
  have hp : prepareBalance false h = h.removeEmptyChildren 0 := rfl
  rw [hp, removeEmptyChildren_without hl]
  simp only [Heap.at]
  rw [Heap.without_walk hl.toTree]
  have hlast : ∀ es y, h.walk 0 es = some y → es ≠ [] → es.getLast? = some (h.node y).name := by
    intro es y hy hn
    rcases List.eq_nil_or_concat' es with rfl | ⟨bs, c, rfl⟩
    · exact absurd rfl hn
    · rw [Heap.walk_snoc, Option.bind_eq_some_iff] at hy
      obtain ⟨p, _, h2⟩ := hy
      rw [(hl.toTree.child_lt h2).2.2.2]
      simp
  constructor
  · rintro ⟨h1, h2⟩
    refine ⟨h1, fun es he hn => ?_⟩
    have hhas : ∃ y, h.walk 0 es = some y := by
      obtain ⟨t, rfl⟩ := he
      rw [Heap.walk_append, Option.bind_eq_some_iff] at h1
      obtain ⟨y, h3, _⟩ := h1
      exact ⟨y, h3⟩
    obtain ⟨y, hy⟩ := hhas
    have h3 := h2 es y he hn hy
    rw [(findAccounts_spec hl.toTree hl.root.1 _).2] at h3
    rw [Heap.amt_at hy, hlast es y hy hn]
    by_contra hc
    push Not at hc
    exact h3 ⟨⟨⟨es, hy⟩, by simpa using hc.1⟩, fun he => hc.2 (by rw [he])⟩
  · rintro ⟨h1, h2⟩
    refine ⟨h1, fun es y he hn hy hc => ?_⟩
    rw [(findAccounts_spec hl.toTree hl.root.1 _).2] at hc
    have h3 := h2 es he hn
    rw [Heap.amt_at hy, hlast es y hy hn] at h3
    rcases h3 with h3 | h3
    · exact h3 (by simpa using hc.1.2)
    · exact hc.2 (by simpa using h3)

/-- The accounts that are left keep their data, and with the flag to show zero accounts nothing is removed. -/
theorem C34_unchanged {h : Heap} (hl : h.Linked) (x : Ref) :
    ((prepareBalance false h).node x).name = (h.node x).name ∧ ((prepareBalance false h).node x).path = (h.node x).path ∧
    ((prepareBalance false h).node x).amount = (h.node x).amount ∧ ((prepareBalance false h).node x).postings = (h.node x).postings ∧
    prepareBalance true h = h := by
  have hp : prepareBalance false h = h.removeEmptyChildren 0 := rfl
  rw [hp, removeEmptyChildren_without hl]
  exact ⟨rfl, rfl, rfl, rfl, rfl⟩

/-- No zero account is shown. -/
theorem C34_no_zero {h : Heap} (hl : h.Linked) (cs : List Str) (hc : (prepareBalance false h).Has cs) (hn : cs ≠ []) (hr : cs.getLast? ≠ some rootID) :
    ((prepareBalance false h).amt cs).quantity ≠ 0 := by
  obtain ⟨x, hx⟩ := has_iff.1 hc
  have h1 := (C34_shown hl cs x).1 hx
  rw [Heap.amt_at hx, (C34_unchanged hl x).2.2.1, ← Heap.amt_at h1.1]
  rcases h1.2 cs List.prefix_rfl hn with h2 | h2
  · exact h2
  · exact absurd h2 hr

/-- But accounts that are not zero can be hidden: those below a parent that nets to zero. -/
theorem C34_nonzero_shown_false : ¬ ∀ (es : List (Transaction × Posting)) (j : Journal), newJournal.addEach es = some j →
    ∀ cs, j.heap.Has cs → (j.heap.amt cs).quantity ≠ 0 → (prepareBalance false j.heap).Has cs := by
  intro hall
  let p (s : String) (q : I64) : Posting := { accountPath := str s, amount := some ⟨[], q⟩ }
  let es : List (Transaction × Posting) := [({}, p "A:B" 1), ({}, p "A:C" (-1))]
  have ha : ∀ e ∈ es, e.2.amount ≠ none := by decide
  obtain ⟨j, h1, h2⟩ := C27_balance_is_sum es ha
  have m : j.heap.Made rootID := addEach_made es newJournal j .new h1
  have h3 := h2 [str "A", str "B"]
  have h4 := hall es j h1 [str "A", str "B"] (h3.1.2 (Or.inr ⟨(({} : Transaction), p "A:B" 1), by simp [es], by decide⟩))
    (by rw [h3.2.1]; decide)
  obtain ⟨x, hx⟩ := has_iff.1 h4
  rcases ((C34_shown m.full.toLinked _ x).1 hx).2 [str "A"] (by simp) (by simp) with h5 | h5
  · rw [(h2 [str "A"]).2.1] at h5
    revert h5
    decide
  · revert h5
    decide

/-- A tree with a zero account, a non-zero one and a zero leaf below it. -/
example :
    let t : Transaction := {}
    let p (s : String) (q : I64) : Posting := { accountPath := str s, amount := some ⟨[], q⟩ }
    ((newJournal.addEach [(t, p "A" 0), (t, p "B:C" 2), (t, p "B:D" 0)]).map fun j =>
      let h := prepareBalance false j.heap
      (h.at [str "A"], h.at [str "B"], h.at [str "B", str "C"], h.at [str "B", str "D"])) = some (none, some 2, some 3, none) := by decide

/-! ### C35 Pruning by depth -/

/-- After `PruneChildren(d, 0)` the accounts below `r` are those at depth `d` at most; nothing else is changed. -/
theorem C35_prune {h : Heap} (ht : h.Tree) {r : Ref} (hr : r < h.next) (d : Nat) :
    (∀ cs x, (h.pruneChildren r d 0).walk r cs = some x ↔ h.walk r cs = some x ∧ cs.length ≤ d) ∧ (h.pruneChildren r d 0).Tree ∧
    ∀ x, ((h.pruneChildren r d 0).node x).name = (h.node x).name ∧ ((h.pruneChildren r d 0).node x).path = (h.node x).path ∧
      ((h.pruneChildren r d 0).node x).amount = (h.node x).amount ∧ ((h.pruneChildren r d 0).node x).postings = (h.node x).postings ∧
      ((h.pruneChildren r d 0).node x).parent = (h.node x).parent := by
  have hp : h.pruneChildren r d 0 = h.clear fun x => ∃ cs, h.walk r cs = some x ∧ (0 : Int) + cs.length = d := by
    have := pruneLoop_spec ht d h.next 0 r (fun _ => False) hr (by omega) (fun _ _ _ h => h)
    rw [Heap.clear_nothing] at this
    unfold Heap.pruneChildren
    rw [this]
    congr 1
    funext x
    simp
  rw [hp]
  refine ⟨fun cs x => ?_, Heap.clear_tree ht _, fun x => ⟨rfl, rfl, rfl, rfl, rfl⟩⟩
  rw [Heap.clear_walk]
  constructor
  · rintro ⟨h1, h2⟩
    refine ⟨h1, ?_⟩
    by_contra hlt
    have hy : ∃ y, h.walk r (cs.take d) = some y := by
      have := h1
      rw [← List.take_append_drop d cs, Heap.walk_append, Option.bind_eq_some_iff] at this
      obtain ⟨y, h3, _⟩ := this
      exact ⟨y, h3⟩
    obtain ⟨y, hy⟩ := hy
    have hlen : (cs.take d).length = d := by rw [List.length_take]; omega
    refine h2 (cs.take d) y (List.take_prefix _ _) (fun he => ?_) hy ⟨cs.take d, hy, by rw [hlen]; omega⟩
    rw [he] at hlen
    omega
  · rintro ⟨h1, h2⟩
    refine ⟨h1, fun es y he hn hy hc => ?_⟩
    obtain ⟨ds, h3, h4⟩ := hc
    have := ht.walk_inj hy h3
    subst this
    have hlt : es.length < cs.length := lt_of_le_of_ne he.length_le fun hh => hn (he.eq_of_length hh)
    omega

/-- With a negative depth nothing is pruned. -/
theorem C35_negative {h : Heap} (ht : h.Tree) {r : Ref} (hr : r < h.next) (d : Int) (hd : d < 0) : h.pruneChildren r d 0 = h := by
  have := pruneLoop_spec ht d h.next 0 r (fun _ => False) hr (by omega) (fun _ _ _ h => h)
  rw [Heap.clear_nothing] at this
  unfold Heap.pruneChildren
  rw [this]
  conv => rhs; rw [← Heap.clear_nothing h]
  congr 1
  funext x
  apply propext
  simp only [false_or, iff_false, not_exists, not_and]
  intro cs _
  omega

example :
    let h := ((newAccount rootID).findOrCreate 0 [str "A", str "B", str "C"]).getD (0, newAccount rootID)
    ((h.2.pruneChildren 0 2 0).at [str "A", str "B"], (h.2.pruneChildren 0 2 0).at [str "A", str "B", str "C"]) = (some 2, none) := by decide

/-! ### C36 Removing children keeps matches and their ancestors -/

/-- After `RemoveChildren` an account below `r` is still there iff it or an account below it matches; the result says whether
`r` or an account below it matches; the data of the accounts is unchanged. -/
theorem C36_remove {h : Heap} (hl : h.Linked) (m : Node → Bool) {r : Ref} (hr : r < h.next) :
    ((h.removeChildren r m).1 = true ↔ ∃ cs y, h.walk r cs = some y ∧ m (h.node y) = true) ∧
    (∀ cs x, cs ≠ [] → ((h.removeChildren r m).2.walk r cs = some x ↔
      h.walk r cs = some x ∧ ∃ ds y, h.walk x ds = some y ∧ m (h.node y) = true)) ∧
    (h.removeChildren r m).2.Linked ∧
    ∀ x, ((h.removeChildren r m).2.node x).name = (h.node x).name ∧ ((h.removeChildren r m).2.node x).path = (h.node x).path ∧
      ((h.removeChildren r m).2.node x).amount = (h.node x).amount ∧ ((h.removeChildren r m).2.node x).postings = (h.node x).postings := by
  classical
  rw [removeChildren_spec hl m hr]
  refine ⟨by simp only [decide_eq_true_eq]; rfl, fun cs x hn => ?_, Heap.without_linked hl _, fun x => ⟨rfl, rfl, rfl, rfl⟩⟩
  simp only
  rw [Heap.without_walk hl.toTree]
  constructor
  · rintro ⟨h1, h2⟩
    refine ⟨h1, ?_⟩
    by_contra hc
    exact h2 cs x List.prefix_rfl hn h1 ⟨⟨cs, hn, h1⟩, hc⟩
  · rintro ⟨h1, ds, y, h2, h3⟩
    refine ⟨h1, fun es z he hne hz hd => hd.2 ?_⟩
    obtain ⟨t, rfl⟩ := he
    rw [Heap.walk_append, hz, Option.bind_some] at h1
    exact ⟨t ++ ds, y, by rw [Heap.walk_append, h1]; exact h2, h3⟩

example :
    let h := ((newAccount rootID).findOrCreate 0 [str "A", str "B"]).getD (0, newAccount rootID)
    let h := (h.2.findOrCreate 0 [str "A", str "C"]).getD (0, newAccount rootID)
    let h := (h.2.findOrCreate 0 [str "D"]).getD (0, newAccount rootID)
    let res := h.2.removeChildren 0 fun a => a.name = str "B"
    (res.1, res.2.at [str "A", str "B"], res.2.at [str "A", str "C"], res.2.at [str "D"]) = (true, some 2, none, none) := by decide

end Gledger
