/-
C38-C42: the texts of reports. The order of the list of children of an account stands for an arbitrary iteration order of
the map.
-/
import Verif.Lemmas.Reports
import Verif.Props.Balances
import Verif.Props.Removal

set_option maxRecDepth 100000

namespace Gledger

/-! ### C38 The flat report lists each leaf account once, sorted -/

/-- The flat report has one line for each account without children (once, in component-wise alphabetical order): its prefix
followed by its path. If the root has no children it is itself such an account. -/
theorem C38_flat_report {h : Heap} (ht : h.Tree) (pre : Prepender) (hpre : ∀ a, pre a ≠ []) :
    ∃ L, h.Listing (fun _ x => h.Leaf x) L ∧ flattenedTree h pre 0 = joinLines (L.map fun a => pre (h.node a.2) ++ (h.node a.2).path) := by
  refine ⟨(h.dfs h.next 0 []).filter fun a => h.Leaf a.2, ?_, ?_⟩
  · have := (dfs_listing ht).filter (Q := fun _ x => h.Leaf x)
    refine ⟨this.sorted, fun cs x => ?_⟩
    rw [this.mem]
    simp
  · rw [flattenedTree, flattenedTreeLoop_spec ht pre _ _ [] _ ht.root.1 (by omega), addLines_join]
    intro l hl
    obtain ⟨a, _, rfl⟩ := List.mem_map.1 hl
    simp [hpre]

theorem reportPrepender_ne (a : Node) : reportPrepender a ≠ [] := by
  intro h
  have := congrArg List.length h
  simp [reportPrepender, str] at this

/-- Three leaves and a parent, inserted in another order. -/
example :
    let t : Transaction := {}
    let p (s : String) (q : I64) : Posting := { accountPath := str s, amount := some ⟨[], q⟩ }
    ((newJournal.addEach [(t, p "B:C" 200), (t, p "A" 300), (t, p "B:A" (-500))]).map fun j => flattenedTree j.heap reportPrepender 0) =
      some (str "                3.00  A\n               -5.00  B:A\n                2.00  B:C") := by decide +kernel

/-! ### C39 The tree report lists each account once, indented by depth -/

theorem treeReport_lines {h : Heap} (ht : h.Tree) (pre : Prepender) (collapse : Bool) (line : List Str × Ref → Str) (keep : List Str × Ref → Bool)
    (hk : ∀ name k, h.child 0 name = some k → ∀ c : TreeContext, c.isOnlyChild = false → c.collapsedAccounts = [] → c.depth = 0 → c.collapsedAccountsDepth = 0 →
      treeLoop h pre collapse h.next k c = c.add (((h.dfs h.next k [name]).filter keep).map line))
    (hroot : ∀ x, keep ([], x) = false) :
    treeReport h pre collapse 0 = addLines [] (((h.dfs (h.next + 1) 0 []).filter keep).map line) := by
  rw [treeReport, Heap.dfs, List.filter_cons, hroot, if_neg (by simp), List.filter_flatMap, List.map_flatMap]
  rw [foldl_children (fun c : TreeContext => c.isOnlyChild = false ∧ c.collapsedAccounts = [] ∧ c.depth = 0 ∧ c.collapsedAccountsDepth = 0)
    TreeContext.add (fun c => rfl) TreeContext.add_append (fun _ _ h => h) _
    (fun name => ((match h.child 0 name with | none => [] | some k => h.dfs h.next k ([] ++ [name])).filter keep).map line) _ _ ⟨rfl, rfl, rfl, rfl⟩]
  · rfl
  · rintro c ⟨h1, h2, h3, h4⟩ name hn
    obtain ⟨k, hk'⟩ := (mem_sortedChildNames ht).1 hn
    simp only [hk', List.nil_append]
    exact hk name k hk' c h1 h2 h3 h4

theorem dfs_more {h : Heap} (ht : h.Tree) : h.dfs (h.next + 1) 0 [] = h.dfs h.next 0 [] := by
  have : h.Listing (fun _ _ => True) (h.dfs (h.next + 1) 0 []) := by
    refine ⟨sorted_dfs ht _ _ _ ht.root.1 (by omega), fun cs x => ?_⟩
    rw [mem_dfs ht _ _ _ _ _ ht.root.1 (by omega)]
    simp
  exact this.unique (dfs_listing ht)

/-- Without collapsing the tree report has one line for each account below the root, a parent before its children and
otherwise alphabetically: its prefix, two blanks per level, and its name. -/
theorem C39_tree_report {h : Heap} (ht : h.Tree) (pre : Prepender) (hpre : ∀ a, pre a ≠ []) :
    ∃ L, h.Listing (fun cs _ => cs ≠ []) L ∧
      treeReport h pre false 0 = joinLines (L.map fun a => pre (h.node a.2) ++ List.replicate (2 * (a.1.length - 1)) ' ' ++ a.1.getLastD []) := by
  have hL := (dfs_listing ht).filter (Q := fun cs _ => cs ≠ [])
  refine ⟨(h.dfs h.next 0 []).filter fun a => a.1 ≠ [], ⟨hL.sorted, fun cs x => by rw [hL.mem]; simp⟩, ?_⟩
  rw [treeReport_lines ht pre false (fun a => pre (h.node a.2) ++ calculateSpaces (a.1.length - 1) ++ (h.node a.2).name) (fun a => a.1 ≠ []), dfs_more ht, addLines_join]
  · congr 1
    apply List.map_congr_left
    rintro ⟨cs, x⟩ ha
    have hmem := (hL.mem cs x).1 ha
    obtain ⟨h1, _, h2⟩ := hmem
    rcases List.eq_nil_or_concat' cs with rfl | ⟨bs, c, rfl⟩
    · exact absurd rfl h2
    · simp only [Heap.at] at h1
      rw [Heap.walk_snoc, Option.bind_eq_some_iff] at h1
      obtain ⟨p, _, h4⟩ := h1
      simp only [(ht.child_lt h4).2.2.2, calculateSpaces]
      rw [Nat.mul_comm]
      simp
  · intro l hl
    obtain ⟨a, _, rfl⟩ := List.mem_map.1 hl
    simp [hpre]
  · intro name k hk c h1 h2 h3 h4
    obtain ⟨g1, g2, _⟩ := ht.child_lt hk
    have hall : (h.dfs h.next k [name]).filter (fun a => a.1 ≠ []) = h.dfs h.next k [name] := by
      rw [List.filter_eq_self]
      rintro ⟨ds, x⟩ ha
      obtain ⟨es, rfl, _⟩ := (mem_dfs ht _ _ _ _ _ g2 (by omega)).1 ha
      simp
    rw [hall]
    exact treeLoop_spec ht pre h.next k [name] c g2 (by omega) (by simp) h1 (by simp [h3])
  · intro x; simp

example :
    let t : Transaction := {}
    let p (s : String) (q : I64) : Posting := { accountPath := str s, amount := some ⟨[], q⟩ }
    ((newJournal.addEach [(t, p "B:C" 200), (t, p "A" 300), (t, p "B:A" (-500))]).map fun j => treeReport j.heap reportPrepender false 0) =
      some (str "                3.00  A\n               -3.00  B\n               -5.00    A\n                2.00    C") := by decide +kernel

/-! ### C40 Collapsing only joins only-child chains -/

/-- With collapsing, the tree report has one line for each account below the root that does not have exactly one child: its
own prefix, two blanks per line it is indented under, and the names of the chain that ends in it. -/
theorem C40_collapsed_report {h : Heap} (ht : h.Tree) (pre : Prepender) (hpre : ∀ a, pre a ≠ []) :
    ∃ L, h.Listing (fun cs _ => cs ≠ [] ∧ ¬ h.Single cs) L ∧
      treeReport h pre true 0 = joinLines (L.map fun a =>
        pre (h.node a.2) ++ List.replicate (2 * h.level a.1) ' ' ++ joinPath (h.chain a.1)) := by
  have hL := (dfs_listing ht).filter (Q := fun cs _ => cs ≠ [] ∧ ¬ h.Single cs)
  refine ⟨(h.dfs h.next 0 []).filter fun a => a.1 ≠ [] ∧ ¬ h.Single a.1, ⟨hL.sorted, fun cs x => by rw [hL.mem]; simp⟩, ?_⟩
  rw [treeReport_lines ht pre true (collapsedLine h pre) (fun a => a.1 ≠ [] ∧ ¬ h.Single a.1), dfs_more ht, addLines_join]
  · congr 1
    apply List.map_congr_left
    intro a _
    simp only [collapsedLine, calculateSpaces]
    rw [Nat.mul_comm]
  · intro l hl
    obtain ⟨a, _, rfl⟩ := List.mem_map.1 hl
    simp [hpre, collapsedLine]
  · intro name k hk c h1 h2 h3 h4
    obtain ⟨g1, g2, _, g4⟩ := ht.child_lt hk
    have hall : (h.dfs h.next k [name]).filter (fun a => a.1 ≠ [] ∧ ¬ h.Single a.1) = (h.dfs h.next k [name]).filter (fun a => ¬ h.Single a.1) := by
      apply List.filter_congr
      rintro ⟨ds, x⟩ ha
      obtain ⟨es, rfl, _⟩ := (mem_dfs ht _ _ _ _ _ g2 (by omega)).1 ha
      simp
    rw [hall]
    exact (treeLoop_collapse ht pre h.next k [name] c g2 (by omega) (by simp) (by simp only [Heap.at]; rw [Heap.walk_cons, hk]; rfl) h4).1 h1 h2
      (by rw [h3, (level_one name).1]) (by rw [(level_one name).2, g4])
  · intro x; simp

/-- Whether the line of `ds` shows the name of `cs`: `cs` is on the way to `ds`, and within the chain. -/
def Heap.ShownOn (h : Heap) (cs ds : List Str) : Prop := cs <+: ds ∧ ds.length < cs.length + (h.chain ds).length

theorem chain_length {h : Heap} {ds : List Str} {n : Nat} (hn : 0 < n) (hle : n ≤ ds.length) :
    ds.length < n + (h.chain ds).length ↔ ∀ i, n ≤ i → i < ds.length → h.Single (ds.take i) := by
  have hne : ds ≠ [] := by rintro rfl; simp at hle; omega
  obtain ⟨h1, h2⟩ := stops_pos (h := h) hne
  have hs : h.stops ds ≠ [] := List.ne_nil_of_length_pos h1
  have hlast : (h.stops ds).getLastD 0 = (h.stops ds).getLast hs := by
    rw [List.getLastD_eq_getLast?, List.getLast?_eq_some_getLast hs]; rfl
  have hm := List.getLast_mem hs
  have hl := h2 _ hm
  unfold Heap.chain
  rw [List.length_drop, hlast]
  have hsorted : (h.stops ds).Pairwise (· < ·) := by
    unfold Heap.stops
    exact List.pairwise_lt_range.filter _
  have hmax : ∀ i ∈ h.stops ds, i ≤ (h.stops ds).getLast hs := by
    intro i hi
    rw [← List.dropLast_append_getLast hs, List.pairwise_append] at hsorted
    rw [← List.dropLast_append_getLast hs, List.mem_append] at hi
    rcases hi with hi | hi
    · exact Nat.le_of_lt (hsorted.2.2 i hi _ (by simp))
    · simp at hi; omega
  have hmem : ∀ i, i ∈ h.stops ds ↔ i < ds.length ∧ (i = 0 ∨ ¬ h.Single (ds.take i)) := by
    intro i; unfold Heap.stops; simp
  constructor
  · intro hlt i hi hid
    by_contra hc
    have := hmax i ((hmem i).2 ⟨hid, Or.inr hc⟩)
    omega
  · intro hall
    by_contra hc
    have h5 : n ≤ (h.stops ds).getLast hs := by omega
    have h6 := hall _ h5 hl
    rcases ((hmem _).1 hm).2 with h7 | h7
    · omega
    · exact h7 h6

/-- Every account below the root is shown on exactly one line of the collapsed report. -/
theorem C40_each_once {h : Heap} (ht : h.Tree) (cs : List Str) (hcs : cs ≠ []) (hh : h.Has cs) :
    ∃! ds, (ds ≠ [] ∧ h.Has ds ∧ ¬ h.Single ds) ∧ h.ShownOn cs ds := by
  have hpos : 0 < cs.length := List.length_pos_iff.2 hcs
  -- follow the only children down
  have key : ∀ (n : Nat) (ds : List Str) (x : Ref), h.at ds = some x → h.next ≤ x + n → cs <+: ds →
      (∀ i, cs.length ≤ i → i < ds.length → h.Single (ds.take i)) →
      ∃ ds, (ds ≠ [] ∧ h.Has ds ∧ ¬ h.Single ds) ∧ h.ShownOn cs ds := by
    intro n
    induction n with
    | zero => intro ds x hx hn; have := ht.at_next hx; omega
    | succ n ih =>
      intro ds x hx hn hp hall
      by_cases hs : h.Single ds
      · have hlen : (h.node x).children.length = 1 := by
          have := hs
          unfold Heap.Single at this
          rw [hx] at this
          simpa using this
        obtain ⟨kc, hkc⟩ := List.length_eq_one_iff.1 hlen
        have hc : h.child x kc.1 = some kc.2 := ht.child_iff.2 (by rw [hkc]; simp)
        obtain ⟨g1, _⟩ := ht.child_lt hc
        refine ih (ds ++ [kc.1]) kc.2 (by simp only [Heap.at] at hx ⊢; rw [Heap.walk_snoc, hx]; exact hc) (by omega) (hp.trans (List.prefix_append _ _)) ?_
        intro i h1 h2
        rw [List.length_append, List.length_singleton] at h2
        rw [List.take_append_of_le_length (by omega)]
        by_cases h3 : i = ds.length
        · subst h3; rw [List.take_length]; exact hs
        · exact hall i h1 (by omega)
      · have hne : ds ≠ [] := by rintro rfl; exact hcs (by simpa using hp)
        exact ⟨ds, ⟨hne, has_iff.2 ⟨x, hx⟩, hs⟩, hp, (chain_length hpos hp.length_le).2 hall⟩
  obtain ⟨x, hx⟩ := has_iff.1 hh
  obtain ⟨ds, h1, h2⟩ := key h.next cs x hx (by omega) List.prefix_rfl (fun i h1 h2 => by omega)
  refine ⟨ds, ⟨h1, h2⟩, ?_⟩
  rintro es ⟨⟨h3, h4, h5⟩, h6, h7⟩
  -- two lines that show the same account: neither ends before the other
  have step : ∀ a b : List Str, cs <+: a → cs <+: b → h.Has a → h.Has b →
      (∀ i, cs.length ≤ i → i < a.length → h.Single (a.take i)) → (∀ i, cs.length ≤ i → i < b.length → h.Single (b.take i)) →
      ∀ i, cs.length ≤ i → i ≤ a.length → i ≤ b.length → a.take i = b.take i := by
    intro a b ha hb hha hhb hsa hsb i hi
    induction i, hi using Nat.le_induction with
    | base => intro _ _; exact (List.prefix_iff_eq_take.1 ha).symm.trans (List.prefix_iff_eq_take.1 hb)
    | succ i hi ih =>
      intro h8 h9
      have e := ih (by omega) (by omega)
      obtain ⟨xa, hxa⟩ := has_iff.1 hha
      obtain ⟨xb, hxb⟩ := has_iff.1 hhb
      have hsingle := hsa i hi (by omega)
      have part : ∀ (a : List Str) (xa : Ref), h.at a = some xa → (hl : i < a.length) → ∃ p, h.at (a.take i) = some p ∧ ∃ c, h.child p a[i] = some c := by
        intro a xa hxa hl
        have : a = a.take i ++ ([a[i]] ++ a.drop (i + 1)) := by simp
        rw [this] at hxa
        simp only [Heap.at] at hxa
        rw [Heap.walk_append, Option.bind_eq_some_iff] at hxa
        obtain ⟨p, h1, h2⟩ := hxa
        rw [Heap.walk_append, Option.bind_eq_some_iff] at h2
        obtain ⟨c, h3, _⟩ := h2
        rw [Heap.walk_cons, Option.bind_eq_some_iff] at h3
        obtain ⟨c', h4, _⟩ := h3
        exact ⟨p, h1, c', h4⟩
      obtain ⟨p, hp, ca, hca⟩ := part a xa hxa (by omega)
      obtain ⟨p', hp', cb, hcb⟩ := part b xb hxb (by omega)
      rw [← e, hp] at hp'
      cases hp'
      unfold Heap.Single at hsingle
      rw [hp] at hsingle
      simp only [Option.map_some, Option.some.injEq] at hsingle
      obtain ⟨kc, hkc⟩ := List.length_eq_one_iff.1 hsingle
      have m1 := ht.child_iff.1 hca
      have m2 := ht.child_iff.1 hcb
      rw [hkc, List.mem_singleton] at m1 m2
      have : a[i] = b[i] := by rw [← m2] at m1; exact congrArg Prod.fst m1
      rw [List.take_succ_eq_append_getElem (by omega), List.take_succ_eq_append_getElem (by omega), e, this]
  have sd := (chain_length hpos h2.1.length_le).1 h2.2
  have se := (chain_length hpos h6.length_le).1 h7
  have st := step es ds h6 h2.1 h4 h1.2.1 se sd
  rcases Nat.lt_trichotomy es.length ds.length with hlt | heq | hgt
  · have e := st es.length h6.length_le (le_refl _) (by omega)
    rw [List.take_length] at e
    exact absurd (e ▸ sd es.length h6.length_le hlt) h5
  · have e := st es.length h6.length_le (le_refl _) (by omega)
    rw [List.take_length, heq, List.take_length] at e
    exact e
  · have e := st ds.length h2.1.length_le (by omega) (le_refl _)
    rw [List.take_length] at e
    exact absurd (e ▸ se ds.length h2.1.length_le hgt) h1.2.2

/-- A chain of two, and a fork under a chain. -/
example :
    let t : Transaction := {}
    let p (s : String) (q : I64) : Posting := { accountPath := str s, amount := some ⟨[], q⟩ }
    ((newJournal.addEach [(t, p "B:C:E:F" 200), (t, p "A:X" 300), (t, p "B:C:D" (-500))]).map fun j => treeReport j.heap reportPrepender true 0) =
      some (str "                3.00  A:X\n               -3.00  B:C\n               -5.00    D\n                2.00    E:F") := by decide +kernel

/-! ### C41 Reports do not depend on map iteration order -/

/-- The same accounts with their children iterated in another order. -/
structure Heap.Shuffled (h h' : Heap) : Prop where
  next : h'.next = h.next
  children : ∀ r, (h'.node r).children.Perm (h.node r).children
  rest : ∀ r, ∃ cs, h'.node r = { h.node r with children := cs }

theorem Heap.Shuffled.names {h h' : Heap} (s : h.Shuffled h') (ht : h.Tree) (r : Ref) : h'.sortedChildNames r = h.sortedChildNames r := by
  unfold Heap.sortedChildNames
  exact (sortStrings_congr (ht.keys r) ((s.children r).symm.map _)).symm

theorem Heap.Shuffled.child {h h' : Heap} (s : h.Shuffled h') (ht : h.Tree) (r : Ref) (k : Str) : h'.child r k = h.child r k := by
  have hn' : ((h'.node r).children.map Prod.fst).Nodup := ((s.children r).map _).nodup_iff.2 (ht.keys r)
  unfold Heap.child
  cases hc : lookupKey k (h.node r).children with
  | some c => exact lookupKey_of_mem hn' ((s.children r).mem_iff.2 (lookupKey_mem hc))
  | none =>
    rw [lookupKey_none] at hc ⊢
    rwa [((s.children r).map _).mem_iff]

/-- For a prefix that does not itself look at the order of the children, all three forms of the report, the list of leaves'
lines and the trees, are the same for every iteration order. -/
theorem C41_order_irrelevant {h h' : Heap} (ht : h.Tree) (s : h.Shuffled h') (pre : Prepender)
    (hpre : ∀ (a : Node) (cs : List (Str × Ref)), pre { a with children := cs } = pre a) (r : Ref) :
    flattenedTree h' pre r = flattenedTree h pre r ∧ ∀ collapse, treeReport h' pre collapse r = treeReport h pre collapse r := by
  have hp : ∀ r, pre (h'.node r) = pre (h.node r) := by
    intro r; obtain ⟨cs, e⟩ := s.rest r; rw [e, hpre]
  have hn : ∀ r, (h'.node r).name = (h.node r).name ∧ (h'.node r).path = (h.node r).path := by
    intro r; obtain ⟨cs, e⟩ := s.rest r; rw [e]; exact ⟨rfl, rfl⟩
  have hl : ∀ r, (h'.node r).children.length = (h.node r).children.length := fun r => (s.children r).length_eq
  constructor
  · unfold flattenedTree
    rw [s.next]
    have key : ∀ (n : Nat) (r : Ref) (cur : Str), flattenedTreeLoop h' pre n r cur = flattenedTreeLoop h pre n r cur := by
      intro n
      induction n with
      | zero => intro r cur; rfl
      | succ n ih =>
        intro r cur
        rw [flattenedTreeLoop, flattenedTreeLoop]
        simp only [hp, hn, hl, s.names ht, s.child ht, ih]
    exact key _ _ _
  · intro collapse
    have key : ∀ (n : Nat) (r : Ref) (c : TreeContext), treeLoop h' pre collapse n r c = treeLoop h pre collapse n r c := by
      intro n
      induction n with
      | zero => intro r c; rfl
      | succ n ih =>
        intro r c
        rw [treeLoop, treeLoop]
        simp only [hp, hn, hl, s.names ht, s.child ht, ih]
    unfold treeReport
    simp only [s.next, s.names ht, s.child ht, key]

/-- The prefix of the balance report is such a prefix. -/
theorem C41_balance {h h' : Heap} (ht : h.Tree) (s : h.Shuffled h') (flatten collapse : Bool) : report h' flatten collapse = report h flatten collapse := by
  obtain ⟨h1, h2⟩ := C41_order_irrelevant ht s reportPrepender (fun _ _ => rfl) 0
  have h3 : (h'.node 0).amount = (h.node 0).amount := by obtain ⟨cs, e⟩ := s.rest 0; rw [e]
  unfold report
  rw [h1, h2, h3]

/-- Without sorting, the order would show: the two orders are different heaps. -/
example :
    let t : Transaction := {}
    let p (s : String) (q : I64) : Posting := { accountPath := str s, amount := some ⟨[], q⟩ }
    let order (es : List (Transaction × Posting)) := (newJournal.addEach es).map fun j => (j.heap.node 0).children.map Prod.fst
    order [(t, p "A" 1), (t, p "B" 2)] = some [str "A", str "B"] ∧ order [(t, p "B" 2), (t, p "A" 1)] = some [str "B", str "A"] := by decide

/-! ### C42 The lines of the flat report add up to the total -/

/-- In a tree in which every parent is its own postings plus its children, the leaves and the parents' own postings add up
to the top. -/
theorem sum_dfs {h : Heap} (ht : h.Tree)
    (heq : ∀ x, x < h.next → ¬ h.Leaf x → (h.node x).amount.quantity = valueOf (h.node x).postings +
      ((h.node x).children.map fun kc => (h.node kc.2).amount.quantity).sum) :
    ∀ (n : Nat) (r : Ref) (cs : List Str), r < h.next → h.next ≤ r + n →
      ((h.dfs n r cs).map fun a => if h.Leaf a.2 then (h.node a.2).amount.quantity else valueOf (h.node a.2).postings).sum =
        (h.node r).amount.quantity := by
  intro n
  induction n with
  | zero => intro r cs h1 h2; omega
  | succ n ih =>
    intro r cs h1 h2
    rw [Heap.dfs, List.map_cons, List.sum_cons, List.map_flatMap, List.flatMap_def, List.sum_flatten]
    by_cases hlf : h.Leaf r
    · have hch : (h.node r).children = [] := by unfold Heap.Leaf at hlf; simpa using hlf
      have hs : h.sortedChildNames r = [] := by unfold Heap.sortedChildNames; rw [hch]; rfl
      simp [hlf, hs]
    · simp only [hlf, if_false]
      rw [heq r h1 hlf]
      congr 1
      rw [List.map_map]
      refine (congrArg List.sum (List.map_congr_left (g := fun name => ((h.child r name).map fun k => (h.node k).amount.quantity).getD 0) ?_)).trans ?_
      · intro name hn
        obtain ⟨k, hk⟩ := (mem_sortedChildNames ht).1 hn
        obtain ⟨g1, g2, _⟩ := ht.child_lt hk
        simp only [Function.comp, hk, Option.map_some, Option.getD_some]
        exact ih k _ g2 (by omega)
      unfold Heap.sortedChildNames
      rw [((sortStrings_perm _).map _).sum_eq, List.map_map]
      congr 1
      apply List.map_congr_left
      intro kc hkc
      simp only [Function.comp]
      rw [ht.child_iff.2 (show (kc.1, kc.2) ∈ (h.node r).children from hkc)]
      rfl

/-- Removing zero accounts preserves the equation. -/
theorem prepareBalance_equation {h : Heap} (hl : h.Linked) (showZero : Bool) (x : Ref)
    (heq : (h.node x).amount.quantity = valueOf (h.node x).postings + ((h.node x).children.map fun kc => (h.node kc.2).amount.quantity).sum) :
    (((prepareBalance showZero h).node x).amount.quantity = valueOf ((prepareBalance showZero h).node x).postings +
      (((prepareBalance showZero h).node x).children.map fun kc => ((prepareBalance showZero h).node kc.2).amount.quantity).sum) := by
  cases showZero with
  | true => exact heq
  | false =>
    have hp : prepareBalance false h = h.removeEmptyChildren 0 := rfl
    rw [hp, removeEmptyChildren_without hl]
    have key : ∀ U : Ref → Prop, (∀ y, U y → (h.node y).amount.quantity = 0) → ((h.node x).children.map fun kc => (h.node kc.2).amount.quantity).sum =
        (((h.without U).node x).children.map fun kc => (h.node kc.2).amount.quantity).sum := by
      classical
      intro U hU
      rw [Heap.without_children]
      generalize (h.node x).children = l
      induction l with
      | nil => rfl
      | cons kc l ih =>
        rw [List.map_cons, List.sum_cons, ih, List.filter_cons]
        by_cases hu : U kc.2
        · simp [hu, hU _ hu]
        · simp [hu]
    rw [key (fun y => y ∈ (h.findAccounts 0 fun a => a.amount.quantity = 0) ∧ (h.node y).name ≠ rootID)] at heq
    · exact heq
    · rintro y ⟨hy, _⟩
      rw [(findAccounts_spec hl.toTree hl.root.1 _).2] at hy
      simpa using hy.2

theorem prepareBalance_linked {h : Heap} (hl : h.Linked) (showZero : Bool) : (prepareBalance showZero h).Linked ∧ (prepareBalance showZero h).next = h.next := by
  cases showZero with
  | true => exact ⟨hl, rfl⟩
  | false =>
    have hp : prepareBalance false h = h.removeEmptyChildren 0 := rfl
    rw [hp, removeEmptyChildren_without hl]
    exact ⟨Heap.without_linked hl _, rfl⟩

/-- What the flat report of any journal adds up to, with or without zero accounts: the amounts on its lines, together with
the postings made directly to the accounts it leaves out, sum to the total. -/
theorem C42_lines_and_own_postings (es : List (Transaction × Posting)) (j : Journal) (hj : newJournal.addEach es = some j) (showZero : Bool)
    (h : Heap) (hh : h = prepareBalance showZero j.heap) :
    ∃ L, h.Listing (fun _ _ => True) L ∧
      flattenedTree h reportPrepender 0 = joinLines ((L.filter fun a => h.Leaf a.2).map fun a => reportPrepender (h.node a.2) ++ (h.node a.2).path) ∧
      ((L.filter fun a => h.Leaf a.2).map fun a => (h.node a.2).amount.quantity).sum +
        ((L.filter fun a => ¬ h.Leaf a.2).map fun a => valueOf (h.node a.2).postings).sum = (h.node 0).amount.quantity := by
  have m : j.heap.Made rootID := addEach_made es newJournal j .new hj
  obtain ⟨hl, hn⟩ := prepareBalance_linked m.full.toLinked showZero
  rw [← hh] at hl hn
  have ht := hl.toTree
  refine ⟨h.dfs h.next 0 [], dfs_listing ht, ?_, ?_⟩
  · obtain ⟨L, h1, h2⟩ := C38_flat_report ht reportPrepender reportPrepender_ne
    rw [h2]
    have := (dfs_listing ht).filter (Q := fun _ x => h.Leaf x)
    rw [h1.unique (l₂ := (h.dfs h.next 0 []).filter fun a => h.Leaf a.2) ⟨this.sorted, fun cs x => by rw [this.mem]; simp⟩]
  · have hsum := sum_dfs ht (fun x hx _ => by
      have := prepareBalance_equation m.full.toLinked showZero x (C29_parent_is_own_plus_children es j hj x (by rw [← hn]; exact hx))
      rw [hh]; exact this) h.next 0 [] ht.root.1 (by omega)
    rw [← hsum]
    generalize h.dfs h.next 0 [] = l
    induction l with
    | nil => rfl
    | cons a l ih =>
      rw [List.map_cons, List.sum_cons, ← ih]
      by_cases ha : h.Leaf a.2
      · simp [ha, add_assoc]
      · simp [ha, add_left_comm]

/-- If nothing is posted directly to an account with accounts below it, the lines of the flat report add up to the total.
(Missing: parents with postings of their own, for which the claim is false.) -/
theorem C42_lines_sum_partial (es : List (Transaction × Posting)) (j : Journal) (hj : newJournal.addEach es = some j) (showZero : Bool)
    (hown : ∀ e ∈ es, ∀ e' ∈ es, e.2.components <+: e'.2.components → e.2.components = e'.2.components)
    (h : Heap) (hh : h = prepareBalance showZero j.heap) :
    ∃ L, h.Listing (fun _ x => h.Leaf x) L ∧
      flattenedTree h reportPrepender 0 = joinLines (L.map fun a => reportPrepender (h.node a.2) ++ (h.node a.2).path) ∧
      (L.map fun a => (h.node a.2).amount.quantity).sum = (h.node 0).amount.quantity := by
  obtain ⟨L, h1, h2, h3⟩ := C42_lines_and_own_postings es j hj showZero h hh
  have hLf := h1.filter (Q := fun _ x => h.Leaf x)
  refine ⟨L.filter fun a => h.Leaf a.2, ⟨hLf.sorted, fun cs x => by rw [hLf.mem]; simp⟩, h2, ?_⟩
  rw [← h3]
  have hall : ∀ e ∈ es, e.2.amount ≠ none := by
    intro e he hn
    rw [C27_no_amount_crashes es ⟨e, he, hn⟩] at hj
    cases hj
  obtain ⟨j2, hj2, h4⟩ := C27_balance_is_sum es hall
  rw [hj] at hj2
  cases hj2
  have m : j.heap.Made rootID := addEach_made es newJournal j .new hj
  obtain ⟨hl, hn⟩ := prepareBalance_linked m.full.toLinked showZero
  rw [← hh] at hl hn
  have hzero : ((L.filter fun a => ¬ h.Leaf a.2).map fun a => valueOf (h.node a.2).postings).sum = 0 := by
    apply List.sum_eq_zero
    intro v hv
    obtain ⟨⟨cs, x⟩, ha, rfl⟩ := List.mem_map.1 hv
    rw [List.mem_filter, h1.mem] at ha
    simp only [and_true, decide_not, Bool.not_eq_eq_eq_not, Bool.not_true, decide_eq_false_iff_not] at ha
    obtain ⟨hx, hnl⟩ := ha
    -- such an account has a child
    obtain ⟨kc, hkc⟩ : ∃ kc, kc ∈ (h.node x).children := by
      rcases hch : (h.node x).children with _ | ⟨kc, l⟩
      · exact absurd (show h.Leaf x by unfold Heap.Leaf; rw [hch]; rfl) hnl
      · exact ⟨kc, by simp⟩
    have hkid : h.at (cs ++ [kc.1]) = some kc.2 := by
      simp only [Heap.at] at hx ⊢
      rw [Heap.walk_snoc, hx]
      exact hl.toTree.child_iff.2 hkc
    have back : ∀ cs x, h.at cs = some x → j.heap.at cs = some x := by
      intro cs x hx
      rw [hh] at hx
      cases showZero with
      | true => exact hx
      | false => exact ((C34_shown m.full.toLinked cs x).1 hx).1
    have hpost : (h.node x).postings = (j.heap.node x).postings := by
      rw [hh]
      cases showZero with
      | true => rfl
      | false => exact (C34_unchanged m.full.toLinked x).2.2.2.1
    simp only
    rw [hpost, ← Heap.own_at (back cs x hx), (h4 cs).2.2.2]
    have hempty : exactly cs (es.map Prod.snd) = [] := by
      unfold exactly
      rw [List.filter_eq_nil_iff]
      intro p hp
      obtain ⟨e, he, rfl⟩ := List.mem_map.1 hp
      simp only [decide_eq_true_eq]
      intro hcs
      rcases (h4 (cs ++ [kc.1])).1.1 (has_iff.2 ⟨_, back _ _ hkid⟩) with h5 | ⟨e', he', h5⟩
      · simp at h5
      · have := hown e he e' he' (by rw [hcs]; exact (List.prefix_append _ _).trans h5)
        rw [hcs] at this
        rw [← this] at h5
        have := h5.length_le
        simp at this
    rw [hempty]
    rfl
  rw [hzero, add_zero]

/-- Two leaves under a parent and a third; none of them is a parent with postings. -/
example :
    let t : Transaction := {}
    let p (s : String) (q : I64) : Posting := { accountPath := str s, amount := some ⟨[], q⟩ }
    let es := [(t, p "B:C" 200), (t, p "A" 300), (t, p "B:A" (-500))]
    ∀ e ∈ es, ∀ e' ∈ es, e.2.components <+: e'.2.components → e.2.components = e'.2.components := by decide

/-- With postings to a parent the lines do not add up: that line is missing. -/
theorem C42_lines_sum_false : ¬ ∀ (es : List (Transaction × Posting)) (j : Journal), newJournal.addEach es = some j →
    ∀ L, j.heap.Listing (fun _ x => j.heap.Leaf x) L → (L.map fun a => (j.heap.node a.2).amount.quantity).sum = (j.heap.node 0).amount.quantity := by
  intro hall
  let p (s : String) (q : I64) : Posting := { accountPath := str s, amount := some ⟨[], q⟩ }
  let es : List (Transaction × Posting) := [({}, p "A" 1), ({}, p "A:B" 2)]
  have hsome : (newJournal.addEach es).isSome = true := by decide
  obtain ⟨j, hj⟩ := Option.isSome_iff_exists.1 hsome
  have m : j.heap.Made rootID := addEach_made es newJournal j .new hj
  obtain ⟨L, h1, h2, h3⟩ := C42_lines_and_own_postings es j hj true j.heap rfl
  have hLf := h1.filter (Q := fun _ x => j.heap.Leaf x)
  have h4 := hall es j hj (L.filter fun a => j.heap.Leaf a.2) ⟨hLf.sorted, fun cs x => by rw [hLf.mem]; simp⟩
  have hleaves : (newJournal.addEach es).map (fun j => (((j.heap.dfs j.heap.next 0 []).filter fun a => j.heap.Leaf a.2).map fun a => (j.heap.node a.2).amount.quantity).sum) = some 2 := by decide
  have hroot : (newJournal.addEach es).map (fun j => (j.heap.node 0).amount.quantity) = some 3 := by decide
  rw [hj] at hleaves hroot
  simp only [Option.map_some, Option.some.injEq] at hleaves hroot
  rw [h1.unique (dfs_listing m.full.toTree), hleaves, hroot] at h4
  revert h4
  decide

end Gledger
