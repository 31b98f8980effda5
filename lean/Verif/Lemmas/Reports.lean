import Verif.Lemmas.Sorting
import Verif.Lemmas.Removal
import Verif.Model.Cmd

/-! Reports as lists of lines. -/

namespace Gledger

variable {h : Heap}

/-- The accounts at and below `r` in depth-first alphabetical order. -/
def Heap.dfs (h : Heap) : Nat → Ref → List Str → List (List Str × Ref)
  | 0, _, _ => []
  | n + 1, r, cs => (cs, r) :: (h.sortedChildNames r).flatMap fun name =>
      match h.child r name with
      | none => []
      | some k => h.dfs n k (cs ++ [name])

theorem mem_sortedChildNames (ht : h.Tree) {r : Ref} {k : Str} : k ∈ h.sortedChildNames r ↔ ∃ c, h.child r k = some c := by
  unfold Heap.sortedChildNames
  rw [(sortStrings_perm _).mem_iff, List.mem_map]
  constructor
  · rintro ⟨⟨a, c⟩, h1, rfl⟩; exact ⟨c, ht.child_iff.2 h1⟩
  · rintro ⟨c, h1⟩; exact ⟨(k, c), ht.child_iff.1 h1, rfl⟩

theorem mem_dfs (ht : h.Tree) : ∀ (n : Nat) (r : Ref) (cs ds : List Str) (x : Ref), r < h.next → h.next ≤ r + n →
    ((ds, x) ∈ h.dfs n r cs ↔ ∃ es, ds = cs ++ es ∧ h.walk r es = some x) := by
  intro n
  induction n with
  | zero => intro r cs ds x h1 h2; omega
  | succ n ih =>
    intro r cs ds x h1 h2
    rw [Heap.dfs, List.mem_cons, List.mem_flatMap]
    constructor
    · rintro (h3 | ⟨k, h3, h4⟩)
      · cases h3; exact ⟨[], by simp, rfl⟩
      · obtain ⟨c, h5⟩ := (mem_sortedChildNames ht).1 h3
        rw [h5] at h4
        obtain ⟨g1, g2, _⟩ := ht.child_lt h5
        obtain ⟨es, rfl, h6⟩ := (ih c _ ds x g2 (by omega)).1 h4
        exact ⟨k :: es, by simp, by rw [Heap.walk_cons, h5]; exact h6⟩
    · rintro ⟨es, rfl, h3⟩
      cases es with
      | nil => cases h3; simp
      | cons k es =>
        rw [Heap.walk_cons, Option.bind_eq_some_iff] at h3
        obtain ⟨c, h5, h6⟩ := h3
        obtain ⟨g1, g2, _⟩ := ht.child_lt h5
        refine Or.inr ⟨k, (mem_sortedChildNames ht).2 ⟨c, h5⟩, ?_⟩
        rw [h5]
        exact (ih c _ _ x g2 (by omega)).2 ⟨es, by simp, h6⟩

theorem sorted_dfs (ht : h.Tree) : ∀ (n : Nat) (r : Ref) (cs : List Str), r < h.next → h.next ≤ r + n →
    (h.dfs n r cs).Pairwise fun a b => PathLt a.1 b.1 := by
  intro n
  induction n with
  | zero => intro r cs h1 h2; omega
  | succ n ih =>
    intro r cs h1 h2
    rw [Heap.dfs, List.pairwise_cons]
    have hsub : ∀ k a, a ∈ (match h.child r k with | none => [] | some c => h.dfs n c (cs ++ [k])) → ∃ es, a.1 = cs ++ k :: es := by
      intro k a ha
      cases hc : h.child r k with
      | none => rw [hc] at ha; cases ha
      | some c =>
        rw [hc] at ha
        obtain ⟨g1, g2, _⟩ := ht.child_lt hc
        obtain ⟨es, h3, _⟩ := (mem_dfs ht n c _ a.1 a.2 g2 (by omega)).1 ha
        exact ⟨es, by rw [h3]; simp⟩
    constructor
    · intro a ha
      obtain ⟨k, _, h4⟩ := List.mem_flatMap.1 ha
      obtain ⟨es, h5⟩ := hsub k a h4
      rw [h5]
      exact PathLt.extend cs (by simp)
    · rw [List.pairwise_flatMap]
      constructor
      · intro k hk
        obtain ⟨c, hc⟩ := (mem_sortedChildNames ht).1 hk
        rw [hc]
        obtain ⟨g1, g2, _⟩ := ht.child_lt hc
        exact ih c _ g2 (by omega)
      · have := sortStrings_strict (ht.keys r)
        refine this.imp ?_
        intro k k' hk a ha b hb
        obtain ⟨es, h5⟩ := hsub k a ha
        obtain ⟨fs, h6⟩ := hsub k' b hb
        rw [h5, h6]
        exact PathLt.prepend cs (List.Lex.rel hk)

theorem dfs_listing (ht : h.Tree) : h.Listing (fun _ _ => True) (h.dfs h.next 0 []) := by
  refine ⟨sorted_dfs ht _ _ _ ht.root.1 (by omega), fun cs x => ?_⟩
  rw [mem_dfs ht _ _ _ _ _ ht.root.1 (by omega)]
  simp

theorem Heap.Listing.filter {P Q : List Str → Ref → Prop} {l : List (List Str × Ref)} (hl : h.Listing P l) [∀ a b, Decidable (Q a b)] :
    h.Listing (fun cs x => P cs x ∧ Q cs x) (l.filter fun a => Q a.1 a.2) := by
  refine ⟨hl.sorted.filter _, fun cs x => ?_⟩
  rw [List.mem_filter, hl.mem]
  simp [and_assoc]

/-! ### Joining lines -/

/-- Appending lines to a text, with a newline unless the text is empty. -/
def addLines (current : Str) (ls : List Str) : Str :=
  ls.foldl (fun current l => if current.length = 0 then l else current ++ ['\n'] ++ l) current

theorem addLines_append (current : Str) (a b : List Str) : addLines current (a ++ b) = addLines (addLines current a) b := List.foldl_append

theorem addLines_join (ls : List Str) (hls : ∀ l ∈ ls, l ≠ []) : addLines [] ls = joinLines ls := by
  have key : ∀ (ls : List Str) (cur : Str), cur ≠ [] → addLines cur ls = joinLines (cur :: ls) := by
    intro ls
    induction ls with
    | nil => intro cur _; simp [addLines, joinLines, List.intercalate]
    | cons l ls ih =>
      intro cur hc
      have : addLines cur (l :: ls) = addLines (cur ++ ['\n'] ++ l) ls := by
        unfold addLines
        rw [List.foldl_cons, if_neg (by simpa using hc)]
      rw [this, ih _ (by simp)]
      cases ls with
      | nil => simp [joinLines, List.intercalate]
      | cons m ms => simp [joinLines, List.intercalate]
  cases ls with
  | nil => simp [addLines, joinLines, List.intercalate]
  | cons l ls =>
    have : addLines [] (l :: ls) = addLines l ls := by
      unfold addLines
      rw [List.foldl_cons, List.length_nil, if_pos rfl]
    rw [this, key ls l (hls l (by simp))]

theorem foldl_children {α β : Type} (I : α → Prop) (g : α → List β → α) (hg0 : ∀ c, g c [] = c) (hg : ∀ c a b, g c (a ++ b) = g (g c a) b)
    (hI : ∀ c a, I c → I (g c a)) (step : α → Str → α) (sub : Str → List β) : ∀ (names : List Str) (c : α), I c →
      (∀ c, I c → ∀ name ∈ names, step c name = g c (sub name)) → names.foldl step c = g c (names.flatMap sub) := by
  intro names
  induction names with
  | nil => intro c _ _; simp [hg0]
  | cons name names ih =>
    intro c hc hs
    rw [List.foldl_cons, hs c hc name (by simp), ih _ (hI _ _ hc) fun c hc n hn => hs c hc n (by simp [hn]), List.flatMap_cons, hg]

/-! ### The flat report -/

theorem flattenedTreeLoop_spec (ht : h.Tree) (pre : Prepender) : ∀ (n : Nat) (r : Ref) (cs : List Str) (current : Str), r < h.next → h.next ≤ r + n →
    flattenedTreeLoop h pre n r current =
      addLines current (((h.dfs n r cs).filter fun a => h.Leaf a.2).map fun a => pre (h.node a.2) ++ (h.node a.2).path) := by
  intro n
  induction n with
  | zero => intro r cs current h1 h2; omega
  | succ n ih =>
    intro r cs current h1 h2
    rw [flattenedTreeLoop, Heap.dfs, List.filter_cons]
    by_cases hlf : h.Leaf r
    · have hch : (h.node r).children = [] := by unfold Heap.Leaf at hlf; simpa using hlf
      have hs : h.sortedChildNames r = [] := by unfold Heap.sortedChildNames; rw [hch]; rfl
      simp only [hlf, decide_true, if_true, hs, List.flatMap_nil, List.filter_nil, List.map_cons, List.map_nil]
      rw [if_pos (show (h.node r).children.length = 0 from hlf)]
      unfold addLines
      rw [List.foldl_cons, List.foldl_nil]
      by_cases hc : current.length = 0
      · rw [if_pos hc, if_pos hc]
        have : current = [] := by simpa using hc
        subst this
        simp
      · rw [if_neg hc, if_neg hc, List.append_assoc]
    · simp only [hlf, decide_false, Bool.false_eq_true, if_false]
      rw [if_neg (show ¬ (h.node r).children.length = 0 from hlf), List.filter_flatMap, List.map_flatMap]
      apply foldl_children (fun _ => True) addLines (fun c => rfl) addLines_append (fun _ _ _ => trivial) _ _ _ _ trivial
      intro c _ name hn
      obtain ⟨k, hk⟩ := (mem_sortedChildNames ht).1 hn
      obtain ⟨g1, g2, _⟩ := ht.child_lt hk
      simp only [hk]
      exact ih k _ c g2 (by omega)

/-! ### The tree report -/

/-- Adding lines to the tree of a context. -/
def TreeContext.add (c : TreeContext) (ls : List Str) : TreeContext := { c with tree := addLines c.tree ls }

theorem TreeContext.add_append (c : TreeContext) (a b : List Str) : c.add (a ++ b) = (c.add a).add b := by
  unfold TreeContext.add
  simp only [addLines_append]

theorem treeLoop_spec (ht : h.Tree) (pre : Prepender) : ∀ (n : Nat) (r : Ref) (cs : List Str) (c : TreeContext), r < h.next → h.next ≤ r + n →
    cs ≠ [] → c.isOnlyChild = false → c.depth + 1 = cs.length →
    treeLoop h pre false n r c = c.add ((h.dfs n r cs).map fun a =>
      pre (h.node a.2) ++ calculateSpaces (a.1.length - 1) ++ (h.node a.2).name) := by
  intro n
  induction n with
  | zero => intro r cs c h1 h2; omega
  | succ n ih =>
    intro r cs c h1 h2 hcs hc hd
    rw [treeLoop, Heap.dfs]
    simp only [hc, Bool.and_false, Bool.false_eq_true, if_false]
    rw [foldl_children (fun c : TreeContext => c.isOnlyChild = false ∧ c.depth + 1 = cs.length + 1) TreeContext.add (fun c => rfl) TreeContext.add_append (fun _ _ h => h) _
      (fun name => (match h.child r name with | none => [] | some k => h.dfs n k (cs ++ [name])).map fun a : List Str × Ref =>
        pre (h.node a.2) ++ calculateSpaces (a.1.length - 1) ++ (h.node a.2).name) _ _ ⟨rfl, by simp only; omega⟩]
    · have hd' : calculateSpaces c.depth = calculateSpaces (cs.length - 1) := by rw [← hd]; rfl
      simp only [List.map_cons, List.map_flatMap, TreeContext.add, Nat.add_sub_cancel, hd']
      have : ∀ (x l : Str) (ls : List Str), addLines (if x.length = 0 then l else x ++ ['\n'] ++ l) ls = addLines x (l :: ls) := fun _ _ _ => rfl
      rw [this]
      cases c
      simp_all
    · rintro c' ⟨h3, h4⟩ name hn
      obtain ⟨k, hk⟩ := (mem_sortedChildNames ht).1 hn
      obtain ⟨g1, g2, _⟩ := ht.child_lt hk
      simp only [hk]
      exact ih k (cs ++ [name]) c' g2 (by omega) (by simp) h3 (by simpa using h4)

/-! ### The collapsed report -/

theorem stops_one (c : Str) : h.stops [c] = [0] := by
  unfold Heap.stops
  simp

theorem stops_snoc {cs : List Str} (hcs : cs ≠ []) (c : Str) : h.stops (cs ++ [c]) = h.stops cs ++ if h.Single cs then [] else [cs.length] := by
  unfold Heap.stops
  rw [List.length_append, List.length_singleton, List.range_succ, List.filter_append]
  congr 1
  · apply List.filter_congr
    intro i hi
    rw [List.mem_range] at hi
    rw [List.take_append_of_le_length (by omega)]
  · have h0 : cs.length ≠ 0 := by simpa using hcs
    have ht : (cs ++ [c]).take cs.length = cs := by simp
    by_cases hs : h.Single cs
    · simp [h0, ht, hs]
    · simp [ht, hs]

theorem stops_pos {cs : List Str} (hcs : cs ≠ []) : 0 < (h.stops cs).length ∧ ∀ i ∈ h.stops cs, i < cs.length := by
  have hp : 0 < cs.length := List.length_pos_iff.2 hcs
  constructor
  · apply List.length_pos_of_mem (a := 0)
    unfold Heap.stops
    simp [hp]
  · intro i hi
    unfold Heap.stops at hi
    rw [List.mem_filter, List.mem_range] at hi
    exact hi.1

theorem level_one (c : Str) : h.level [c] = 0 ∧ h.chain [c] = [c] := by
  unfold Heap.level Heap.chain
  rw [stops_one]
  exact ⟨rfl, rfl⟩

theorem level_single {cs : List Str} (hcs : cs ≠ []) (c : Str) (hs : h.Single cs) :
    h.level (cs ++ [c]) = h.level cs ∧ h.chain (cs ++ [c]) = h.chain cs ++ [c] ∧ h.chain cs ≠ [] := by
  have hst := stops_snoc (h := h) hcs c
  rw [if_pos hs, List.append_nil] at hst
  obtain ⟨h1, h2⟩ := stops_pos (h := h) hcs
  have hlt : (h.stops cs).getLastD 0 < cs.length := by
    have hne : h.stops cs ≠ [] := List.ne_nil_of_length_pos h1
    rw [List.getLastD_eq_getLast?, List.getLast?_eq_some_getLast hne]
    exact h2 _ (List.getLast_mem hne)
  unfold Heap.level Heap.chain
  rw [hst]
  refine ⟨rfl, ?_, ?_⟩
  · rw [List.drop_append_of_le_length (by omega)]
  · intro he
    have := congrArg List.length he
    rw [List.length_drop, List.length_nil] at this
    omega

theorem level_stop {cs : List Str} (hcs : cs ≠ []) (c : Str) (hs : ¬ h.Single cs) :
    h.level (cs ++ [c]) = h.level cs + 1 ∧ h.chain (cs ++ [c]) = [c] := by
  have hst := stops_snoc (h := h) hcs c
  rw [if_neg hs] at hst
  obtain ⟨h1, h2⟩ := stops_pos (h := h) hcs
  unfold Heap.level Heap.chain
  rw [hst]
  refine ⟨by simp; omega, ?_⟩
  simp

theorem joinPath_snoc {l : List Str} (hl : l ≠ []) (c : Str) : joinPath (l ++ [c]) = joinPath l ++ ':' :: c := by
  induction l with
  | nil => exact absurd rfl hl
  | cons a l ih =>
    cases l with
    | nil => simp [joinPath]
    | cons b l =>
      have h2 := ih (by simp)
      rw [List.cons_append, joinPath.eq_3 a _ (by simp), h2, joinPath.eq_3 a _ (by simp)]
      simp

/-- The line of an account in a collapsed report. -/
def collapsedLine (h : Heap) (pre : Prepender) (a : List Str × Ref) : Str :=
  pre (h.node a.2) ++ calculateSpaces (h.level a.1) ++ joinPath (h.chain a.1)

theorem calculateSpaces_zero : calculateSpaces 0 = [] := rfl

theorem treeLoop_collapse (ht : h.Tree) (pre : Prepender) : ∀ (n : Nat) (r : Ref) (cs : List Str) (c : TreeContext), r < h.next → h.next ≤ r + n →
    cs ≠ [] → h.at cs = some r → c.collapsedAccountsDepth = 0 →
    (c.isOnlyChild = false → c.collapsedAccounts = [] → c.depth = h.level cs → h.chain cs = [(h.node r).name] →
      treeLoop h pre true n r c = c.add (((h.dfs n r cs).filter fun a => ¬ h.Single a.1).map (collapsedLine h pre))) ∧
    (c.isOnlyChild = true → c.depth = h.level cs + 1 →
      c.collapsedAccounts ++ ':' :: (h.node r).name = calculateSpaces (h.level cs) ++ joinPath (h.chain cs) →
      treeLoop h pre true n r c =
        { c.add (((h.dfs n r cs).filter fun a => ¬ h.Single a.1).map (collapsedLine h pre)) with
          collapsedAccounts := [], isOnlyChild := false }) := by
  intro n
  induction n with
  | zero => intro r cs c h1 h2; omega
  | succ n ih =>
    intro r cs c h1 h2 hcs hat hcd
    have hsingle : h.Single cs ↔ (h.node r).children.length = 1 := by
      unfold Heap.Single; rw [hat]; simp
    -- the children of an account that does not have exactly one child
    have hmany : ∀ (step : TreeContext → Str → TreeContext) (sub : Str → List (List Str × Ref)),
        (∀ c name k, h.child r name = some k → step c name = treeLoop h pre true n k c) →
        (∀ name k, h.child r name = some k → sub name = h.dfs n k (cs ++ [name])) →
        ¬ h.Single cs → ∀ c : TreeContext, c.isOnlyChild = false → c.collapsedAccounts = [] → c.depth = h.level cs + 1 →
        c.collapsedAccountsDepth = 0 →
        ((h.sortedChildNames r).foldl step c) =
          c.add ((((h.sortedChildNames r).flatMap sub).filter
            fun a => ¬ h.Single a.1).map (collapsedLine h pre)) := by
      intro step sub hstep hsub hs c e1 e2 e3 e4
      rw [foldl_children (fun c : TreeContext => c.isOnlyChild = false ∧ c.collapsedAccounts = [] ∧ c.depth = h.level cs + 1 ∧ c.collapsedAccountsDepth = 0)
        TreeContext.add (fun c => rfl) TreeContext.add_append (fun _ _ h => h) _
        (fun name => ((sub name).filter fun a => ¬ h.Single a.1).map (collapsedLine h pre))
        _ _ ⟨e1, e2, e3, e4⟩]
      · rw [List.filter_flatMap, List.map_flatMap]
      · rintro c' ⟨f1, f2, f3, f4⟩ name hn
        obtain ⟨k, hk⟩ := (mem_sortedChildNames ht).1 hn
        obtain ⟨g1, g2, _, g4⟩ := ht.child_lt hk
        obtain ⟨l1, l2⟩ := level_stop hcs name hs
        rw [hstep _ _ k hk]
        simp only [hsub _ k hk]
        exact (ih k (cs ++ [name]) c' g2 (by omega) (by simp) (by simp only [Heap.at] at hat ⊢; rw [Heap.walk_snoc, hat]; exact hk) f4).1 f1 f2
          (by rw [f3, l1]) (by rw [l2, g4])
    -- the child of an account with exactly one
    have hone : ∀ (step : TreeContext → Str → TreeContext) (sub : Str → List (List Str × Ref)),
        (∀ c name k, h.child r name = some k → step c name = treeLoop h pre true n k c) →
        (∀ name k, h.child r name = some k → sub name = h.dfs n k (cs ++ [name])) →
        h.Single cs → ∀ c : TreeContext, c.isOnlyChild = true → c.depth = h.level cs + 1 → c.collapsedAccountsDepth = 0 →
        c.collapsedAccounts = calculateSpaces (h.level cs) ++ joinPath (h.chain cs) →
        ((h.sortedChildNames r).foldl step c) =
          { c.add ((((h.sortedChildNames r).flatMap sub).filter
            fun a => ¬ h.Single a.1).map (collapsedLine h pre)) with collapsedAccounts := [], isOnlyChild := false } := by
      intro step sub hstep hsub hs c e1 e2 e3 e4
      have hlen : (h.sortedChildNames r).length = 1 := by
        unfold Heap.sortedChildNames
        rw [(sortStrings_perm _).length_eq, List.length_map]
        exact hsingle.1 hs
      obtain ⟨name, hname⟩ := List.length_eq_one_iff.1 hlen
      have hn : name ∈ h.sortedChildNames r := by rw [hname]; simp
      obtain ⟨k, hk⟩ := (mem_sortedChildNames ht).1 hn
      obtain ⟨g1, g2, _, g4⟩ := ht.child_lt hk
      obtain ⟨l1, l2, l3⟩ := level_single hcs name hs
      rw [hname]
      simp only [List.foldl_cons, List.foldl_nil, List.flatMap_cons, List.flatMap_nil, List.append_nil, hstep _ _ k hk, hsub _ k hk]
      refine (ih k (cs ++ [name]) c g2 (by omega) (by simp) (by simp only [Heap.at] at hat ⊢; rw [Heap.walk_snoc, hat]; exact hk) e3).2 e1
        (by rw [e2, l1]) ?_
      rw [e4, l1, l2, g4, joinPath_snoc l3, List.append_assoc]
    have hkeep : ¬ h.Single cs → ∀ l : List (List Str × Ref),
        ((cs, r) :: l).filter (fun a => ¬ h.Single a.1) = (cs, r) :: l.filter fun a => ¬ h.Single a.1 := by
      intro hs l
      rw [List.filter_cons, if_pos (by simpa using hs)]
    constructor
    · intro e1 e2 e3 e4
      rw [treeLoop, Heap.dfs]
      simp only [e1, Bool.false_eq_true, if_false, Bool.and_true, decide_eq_true_eq]
      by_cases hs : h.Single cs
      · rw [if_pos (hsingle.1 hs), e2, List.length_nil, if_pos rfl, hone _ (fun name => match h.child r name with | none => [] | some k => h.dfs n k (cs ++ [name])) (fun c name k hk => by simp only [hk]) (fun name k hk => by simp only [hk]) hs]
        rotate_left
        · rfl
        · simp only [e3]
        · exact hcd
        · simp only [e3, e4]; rfl
        rw [List.filter_cons, if_neg (by simpa using hs)]
        simp only [TreeContext.add, Nat.add_sub_cancel]
        cases c
        simp_all
      · rw [if_neg fun h5 => hs (hsingle.2 h5), hmany _ (fun name => match h.child r name with | none => [] | some k => h.dfs n k (cs ++ [name])) (fun c name k hk => by simp only [hk]) (fun name k hk => by simp only [hk]) hs]
        rotate_left
        · rfl
        · exact e2
        · simp only [e3]
        · exact hcd
        rw [hkeep hs, List.map_cons]
        have : ∀ (x l : Str) (ls : List Str), addLines (if x.length = 0 then l else x ++ ['\n'] ++ l) ls = addLines x (l :: ls) := fun _ _ _ => rfl
        have hline : pre (h.node r) ++ calculateSpaces c.depth ++ (h.node r).name = collapsedLine h pre (cs, r) := by
          unfold collapsedLine
          simp only [e3, e4]
          rfl
        simp only [TreeContext.add, Nat.add_sub_cancel, this, hline]
        cases c
        simp_all
    · intro e1 e2 e3
      rw [treeLoop, Heap.dfs]
      simp only [e1, Bool.and_true, if_true]
      by_cases hs : h.Single cs
      · rw [if_pos (hsingle.1 hs), hone _ (fun name => match h.child r name with | none => [] | some k => h.dfs n k (cs ++ [name])) (fun c name k hk => by simp only [hk]) (fun name k hk => by simp only [hk]) hs]
        rotate_left
        · rfl
        · exact e2
        · exact hcd
        · simp only; rw [← e3]; simp
        rw [List.filter_cons, if_neg (by simpa using hs)]
        simp only [TreeContext.add]
      · rw [if_neg fun h5 => hs (hsingle.2 h5), hmany _ (fun name => match h.child r name with | none => [] | some k => h.dfs n k (cs ++ [name])) (fun c name k hk => by simp only [hk]) (fun name k hk => by simp only [hk]) hs]
        rotate_left
        · rfl
        · rfl
        · exact e2
        · exact hcd
        rw [hkeep hs, List.map_cons]
        have : ∀ (x l : Str) (ls : List Str), addLines (if x.length = 0 then l else x ++ ['\n'] ++ l) ls = addLines x (l :: ls) := fun _ _ _ => rfl
        have hline : pre (h.node r) ++ calculateSpaces c.collapsedAccountsDepth ++ c.collapsedAccounts ++ [':'] ++ (h.node r).name = collapsedLine h pre (cs, r) := by
          unfold collapsedLine
          rw [hcd, calculateSpaces_zero]
          simp only [List.append_nil, List.append_assoc]
          rw [← e3]
          rfl
        simp only [TreeContext.add, this, hline]

end Gledger
