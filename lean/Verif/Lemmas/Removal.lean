import Verif.Lemmas.Books
import Mathlib.Data.List.Nodup

/-! Searching account trees and taking accounts out of them. -/

namespace Gledger

variable {h h' : Heap}

/-! ### Searching -/

/-- The accounts below and including `r`, parents first. -/
def Heap.sub (h : Heap) : Nat → Ref → List Ref
  | 0, _ => []
  | n + 1, r => r :: (h.node r).children.flatMap fun kc => h.sub n kc.2

theorem findAccountsLoop_sub (h : Heap) (m : Node → Bool) : ∀ (n : Nat) (r : Ref) (found : List Ref),
    h.findAccountsLoop m n r found = found ++ (h.sub n r).filter fun x => m (h.node x) := by
  intro n
  induction n with
  | zero => intro r found; simp [Heap.findAccountsLoop, Heap.sub]
  | succ n ih =>
    intro r found
    rw [Heap.findAccountsLoop, Heap.sub, List.filter_cons]
    have key : ∀ (l : List (Str × Ref)) (found : List Ref), l.foldl (fun found kc => h.findAccountsLoop m n kc.2 found) found =
        found ++ (l.flatMap fun kc => h.sub n kc.2).filter fun x => m (h.node x) := by
      intro l
      induction l with
      | nil => intro found; simp
      | cons kc l ihl =>
        intro found
        rw [List.foldl_cons, ih, ihl, List.flatMap_cons, List.filter_append, List.append_assoc]
    rw [key]
    by_cases hm : m (h.node r) = true <;> simp [hm]

theorem mem_sub (ht : h.Tree) : ∀ (n : Nat) (r x : Ref), r < h.next → h.next ≤ r + n → (x ∈ h.sub n r ↔ ∃ cs, h.walk r cs = some x) := by
  intro n
  induction n with
  | zero => intro r x h1 h2; omega
  | succ n ih =>
    intro r x h1 h2
    rw [Heap.sub, List.mem_cons, List.mem_flatMap]
    constructor
    · rintro (rfl | ⟨kc, hk, hx⟩)
      · exact ⟨[], rfl⟩
      · obtain ⟨h3, h4, _, _⟩ := ht.down r kc.1 kc.2 hk
        obtain ⟨cs, hc⟩ := (ih kc.2 x h4 (by omega)).1 hx
        exact ⟨kc.1 :: cs, by rw [Heap.walk_cons, ht.child_iff.2 hk]; exact hc⟩
    · rintro ⟨cs, hc⟩
      cases cs with
      | nil => cases hc; exact Or.inl rfl
      | cons c cs =>
        rw [Heap.walk_cons, Option.bind_eq_some_iff] at hc
        obtain ⟨k, h3, h4⟩ := hc
        obtain ⟨h5, h6, _⟩ := ht.child_lt h3
        exact Or.inr ⟨(c, k), ht.child_iff.1 h3, (ih k x h6 (by omega)).2 ⟨cs, h4⟩⟩

/-- The accounts below two children are different. -/
theorem Heap.Tree.apart (ht : h.Tree) {r c c' x : Ref} {k k' : Str} {a b : List Str} (h1 : (k, c) ∈ (h.node r).children)
    (h2 : (k', c') ∈ (h.node r).children) (h3 : h.walk c a = some x) (h4 : h.walk c' b = some x) : k = k' ∧ c = c' ∧ a = b := by
  have e1 : h.walk r (k :: a) = some x := by rw [Heap.walk_cons, ht.child_iff.2 h1]; exact h3
  have e2 : h.walk r (k' :: b) = some x := by rw [Heap.walk_cons, ht.child_iff.2 h2]; exact h4
  have := ht.walk_inj e1 e2
  obtain ⟨rfl, rfl⟩ := List.cons.inj this
  have h5 := ht.child_iff.2 h1
  rw [ht.child_iff.2 h2] at h5
  cases h5
  exact ⟨rfl, rfl, rfl⟩

theorem nodup_sub (ht : h.Tree) : ∀ (n : Nat) (r : Ref), r < h.next → h.next ≤ r + n → (h.sub n r).Nodup := by
  intro n
  induction n with
  | zero => intro r h1 h2; omega
  | succ n ih =>
    intro r h1 h2
    rw [Heap.sub, List.nodup_cons, List.nodup_flatMap]
    have hd := ht.down r
    refine ⟨?_, ?_, ?_⟩
    · intro hm
      obtain ⟨kc, hk, hx⟩ := List.mem_flatMap.1 hm
      obtain ⟨h3, h4, _, _⟩ := hd kc.1 kc.2 hk
      obtain ⟨cs, hc⟩ := (mem_sub ht n kc.2 r h4 (by omega)).1 hx
      have := (ht.walk_lt hc).1
      omega
    · intro kc hk
      obtain ⟨h3, h4, _, _⟩ := hd kc.1 kc.2 hk
      exact ih kc.2 h4 (by omega)
    · have hn := ht.keys r
      rw [List.Nodup, List.pairwise_map] at hn
      refine hn.imp_of_mem ?_
      intro a b ha hb hab x hxa hxb
      obtain ⟨h3, h4, _, _⟩ := hd a.1 a.2 ha
      obtain ⟨h5, h6, _, _⟩ := hd b.1 b.2 hb
      obtain ⟨cs, hc⟩ := (mem_sub ht n a.2 x h4 (by omega)).1 hxa
      obtain ⟨ds, hd⟩ := (mem_sub ht n b.2 x h6 (by omega)).1 hxb
      exact hab (ht.apart ha hb hc hd).1

theorem findAccounts_spec (ht : h.Tree) {r : Ref} (hr : r < h.next) (m : Node → Bool) :
    (h.findAccounts r m).Nodup ∧ ∀ x, x ∈ h.findAccounts r m ↔ (∃ cs, h.walk r cs = some x) ∧ m (h.node x) = true := by
  unfold Heap.findAccounts
  rw [List.nil_append, findAccountsLoop_sub, List.nil_append]
  refine ⟨(nodup_sub ht _ _ hr (by omega)).filter _, fun x => ?_⟩
  rw [List.mem_filter, mem_sub ht _ _ _ hr (by omega)]

/-! ### Unlinking -/

open Classical in
/-- The tree without the accounts of a set. -/
noncomputable def Heap.without (h : Heap) (U : Ref → Prop) : Heap :=
  { h with node := fun x => { h.node x with
      children := (h.node x).children.filter fun kc => ¬ U kc.2
      parent := if U x then none else (h.node x).parent } }

theorem Heap.without_nothing (h : Heap) : h.without (fun _ => False) = h := by
  unfold Heap.without
  simp

theorem Heap.ext' {a b : Heap} (h1 : a.next = b.next) (h2 : ∀ x, a.node x = b.node x) (h3 : a.nextArr = b.nextArr) (h4 : a.arr = b.arr) : a = b := by
  cases a
  cases b
  simp only [Heap.mk.injEq]
  exact ⟨h1, funext h2, h3, h4⟩

theorem Node.ext' {a b : Node} (h1 : a.name = b.name) (h2 : a.path = b.path) (h3 : a.comps = b.comps) (h4 : a.amount = b.amount)
    (h5 : a.parent = b.parent) (h6 : a.children = b.children) (h7 : a.postings = b.postings) (h8 : a.transactions = b.transactions) : a = b := by
  cases a
  cases b
  simp only [Node.mk.injEq]
  exact ⟨h1, h2, h3, h4, h5, h6, h7, h8⟩

theorem Heap.without_children (h : Heap) (U : Ref → Prop) [DecidablePred U] (y : Ref) :
    ((h.without U).node y).children = (h.node y).children.filter fun kc => ¬ U kc.2 := by
  unfold Heap.without
  simp only
  congr 1
  funext kc
  congr

theorem unlink_without (hl : h.Linked) (U : Ref → Prop) (x : Ref) : (h.without U).unlink x = h.without fun y => U y ∨ y = x := by
  classical
  have hset : ∀ (V W : Ref → Prop) [DecidablePred V] [DecidablePred W] (y : Ref), (h.node y).children.filter (fun kc => ¬ V kc.2) = (h.node y).children.filter (fun kc => ¬ W kc.2) →
      ((h.without V).node y).children = ((h.without W).node y).children := by
    intro V W _ _ y he
    rw [Heap.without_children, Heap.without_children]
    exact he
  have hpar : ∀ y, ((h.without U).node y).parent = if U y then none else (h.node y).parent := fun y => rfl
  unfold Heap.unlink
  by_cases hU : U x
  · have h0 : ((h.without U).node x).parent = none := by rw [hpar, if_pos hU]
    rw [h0]
    simp only
    have hsame : ∀ y, (U y ∨ y = x) ↔ U y := fun y => ⟨fun h => h.elim id fun e => e ▸ hU, Or.inl⟩
    refine Heap.ext' rfl (fun y => ?_) rfl rfl
    simp only [Heap.node_modify, Heap.without, hsame]
    by_cases hy : y = x
    · subst hy
      rw [if_pos rfl]
      exact Node.ext' rfl rfl rfl rfl (by simp [hU]) rfl rfl rfl
    · rw [if_neg hy]
  · cases hp : (h.node x).parent with
    | none =>
      have h0 : ((h.without U).node x).parent = none := by rw [hpar, if_neg hU, hp]
      rw [h0]
      simp only
      have hnc : ∀ r kc, kc ∈ (h.node r).children → kc.2 ≠ x := by
        rintro r ⟨k, c⟩ hk rfl
        have := (hl.down r k c hk).2.2.1
        rw [hp] at this
        cases this
      have hch : ∀ y, (h.node y).children.filter (fun kc => ¬ U kc.2) = (h.node y).children.filter fun kc => ¬ (U kc.2 ∨ kc.2 = x) := by
        intro y
        apply List.filter_congr
        intro kc hk
        simp [hnc y kc hk]
      refine Heap.ext' rfl (fun y => ?_) rfl rfl
      simp only [Heap.node_modify]
      by_cases hy : y = x
      · subst hy
        rw [if_pos rfl]
        exact Node.ext' rfl rfl rfl rfl (by simp [Heap.without]) (hset _ _ y (hch y)) rfl rfl
      · rw [if_neg hy]
        exact Node.ext' rfl rfl rfl rfl (by simp [Heap.without, hy]) (hset _ _ y (hch y)) rfl rfl
    | some p =>
      have h0 : ((h.without U).node x).parent = some p := by rw [hpar, if_neg hU, hp]
      rw [h0]
      simp only
      have hup := hl.up x p hp
      have hpx : p ≠ x := by have := (hl.down p _ x hup).1; omega
      have hname : ((h.without U).node x).name = (h.node x).name := rfl
      have hchp : deleteKey (h.node x).name ((h.node p).children.filter fun kc => ¬ U kc.2) =
          (h.node p).children.filter fun kc => ¬ (U kc.2 ∨ kc.2 = x) := by
        unfold deleteKey
        rw [List.filter_filter]
        apply List.filter_congr
        rintro ⟨k, c⟩ hk
        have : k = (h.node x).name ↔ c = x := by
          constructor
          · rintro rfl
            have h1 := hl.toTree.child_iff.2 hk
            rw [hl.toTree.child_iff.2 hup] at h1
            cases h1
            rfl
          · rintro rfl
            exact (hl.down p k c hk).2.2.2.symm
        by_cases h1 : c = x <;> by_cases h2 : U c <;> simp [this, h1, h2]
      have hch : ∀ y, y ≠ p → (h.node y).children.filter (fun kc => ¬ U kc.2) = (h.node y).children.filter fun kc => ¬ (U kc.2 ∨ kc.2 = x) := by
        intro y hy
        apply List.filter_congr
        rintro ⟨k, c⟩ hk
        have : c ≠ x := by
          rintro rfl
          have := (hl.down y k c hk).2.2.1
          rw [hp] at this
          cases this
          exact hy rfl
        simp [this]
      refine Heap.ext' rfl (fun y => ?_) rfl rfl
      simp only [Heap.node_modify, hname]
      by_cases hy : y = x
      · subst hy
        rw [if_pos rfl, if_neg (Ne.symm hpx)]
        exact Node.ext' rfl rfl rfl rfl (by simp [Heap.without]) (hset _ _ y (hch y (Ne.symm hpx))) rfl rfl
      · rw [if_neg hy]
        by_cases hyp : y = p
        · subst hyp
          rw [if_pos rfl]
          exact Node.ext' rfl rfl rfl rfl (by simp [Heap.without, hy]) (by rw [Heap.without_children, Heap.without_children]; exact hchp) rfl rfl
        · rw [if_neg hyp]
          exact Node.ext' rfl rfl rfl rfl (by simp [Heap.without, hy]) (hset _ _ y (hch y hyp)) rfl rfl

theorem unlinkAll_without (hl : h.Linked) (l : List Ref) : ∀ U : Ref → Prop, l.foldl Heap.unlink (h.without U) = h.without fun y => U y ∨ y ∈ l := by
  induction l with
  | nil => intro U; simp
  | cons x l ih =>
    intro U
    rw [List.foldl_cons, unlink_without hl, ih]
    congr 1
    funext y
    simp [or_assoc]

theorem lookupKey_filter {k : Str} {P : Ref → Prop} [DecidablePred P] : ∀ l : List (Str × Ref), (l.map Prod.fst).Nodup →
    lookupKey k (l.filter fun kc => P kc.2) = (lookupKey k l).filter fun c => P c := by
  intro l
  induction l with
  | nil => intro _; rfl
  | cons a l ih =>
    obtain ⟨a, c⟩ := a
    intro hn
    simp only [List.map_cons, List.nodup_cons] at hn
    rw [List.filter_cons, lookupKey]
    by_cases hk : a = k
    · subst hk
      rw [if_pos rfl]
      by_cases hP : P c
      · simp only [hP, decide_true, if_true, lookupKey]
        rw [Option.filter_some_pos (by simpa using hP)]
      · simp only [hP, decide_false, Bool.false_eq_true, if_false, Option.filter_some]
        rw [lookupKey_none]
        intro hm
        apply hn.1
        rw [List.mem_map] at hm ⊢
        obtain ⟨x, h1, h2⟩ := hm
        exact ⟨x, List.mem_of_mem_filter h1, h2⟩
    · rw [if_neg hk]
      by_cases hP : P c
      · simp only [hP, decide_true, if_true]
        rw [lookupKey, if_neg hk, ih hn.2]
      · simp only [hP, decide_false, Bool.false_eq_true, if_false]
        exact ih hn.2

theorem Heap.without_child (ht : h.Tree) (U : Ref → Prop) {r c : Ref} {k : Str} : (h.without U).child r k = some c ↔ h.child r k = some c ∧ ¬ U c := by
  classical
  unfold Heap.child Heap.without
  simp only
  rw [lookupKey_filter (P := fun c => ¬ U c) _ (ht.keys r), Option.filter_eq_some_iff]
  simp

theorem Heap.without_walk (ht : h.Tree) (U : Ref → Prop) (cs : List Str) : ∀ (r x : Ref), (h.without U).walk r cs = some x ↔
    h.walk r cs = some x ∧ ∀ es y, es <+: cs → es ≠ [] → h.walk r es = some y → ¬ U y := by
  induction cs with
  | nil =>
    intro r x
    rw [Heap.walk_nil, Heap.walk_nil]
    refine ⟨fun h => ⟨h, fun es y he hn => absurd (List.prefix_nil.1 he) hn⟩, fun h => h.1⟩
  | cons c cs ih =>
    intro r x
    rw [Heap.walk_cons, Heap.walk_cons, Option.bind_eq_some_iff, Option.bind_eq_some_iff]
    constructor
    · rintro ⟨k, h1, h2⟩
      rw [Heap.without_child ht] at h1
      rw [ih] at h2
      refine ⟨⟨k, h1.1, h2.1⟩, fun es y he hn hy => ?_⟩
      cases es with
      | nil => exact absurd rfl hn
      | cons e es =>
        rw [List.cons_prefix_cons] at he
        obtain ⟨rfl, he⟩ := he
        rw [Heap.walk_cons, h1.1, Option.bind_some] at hy
        by_cases hes : es = []
        · subst hes; cases hy; exact h1.2
        · exact h2.2 es y he hes hy
    · rintro ⟨⟨k, h1, h2⟩, h3⟩
      refine ⟨k, (Heap.without_child ht U).2 ⟨h1, h3 [c] k (by simp) (by simp) (by rw [Heap.walk_cons, h1]; rfl)⟩, ?_⟩
      rw [ih]
      refine ⟨h2, fun es y he hn hy => h3 (c :: es) y (by simpa using he) (by simp) (by rw [Heap.walk_cons, h1]; exact hy)⟩

theorem Heap.without_linked (hl : h.Linked) (U : Ref → Prop) : (h.without U).Linked := by
  classical
  refine ⟨⟨⟨hl.root.1, ?_⟩, fun r k c hm => ?_, fun r => ?_⟩, fun c p hp => ?_⟩
  · show (if U 0 then none else (h.node 0).parent) = none
    rw [hl.root.2]
    simp
  · have hm' : (k, c) ∈ (h.node r).children.filter fun kc => ¬ U kc.2 := hm
    rw [List.mem_filter] at hm'
    obtain ⟨h1, h2, h3, h4⟩ := hl.down r k c hm'.1
    refine ⟨h1, h2, ?_, h4⟩
    show (if U c then none else (h.node c).parent) = some r
    rw [if_neg (by simpa using hm'.2), h3]
  · exact ((hl.keys r).sublist (List.Sublist.map _ List.filter_sublist))
  · have hp' : (if U c then none else (h.node c).parent) = some p := hp
    by_cases hU : U c
    · rw [if_pos hU] at hp'; cases hp'
    · rw [if_neg hU] at hp'
      show ((h.node c).name, c) ∈ (h.node p).children.filter fun kc => ¬ U kc.2
      rw [List.mem_filter]
      exact ⟨hl.up c p hp', by simpa using hU⟩

/-! ### Removing empty accounts -/

theorem removeEmptyChildren_without (hl : h.Linked) (r : Ref) : h.removeEmptyChildren r =
    h.without fun x => x ∈ (h.findAccounts r fun a => a.amount.quantity = 0) ∧ (h.node x).name ≠ rootID := by
  unfold Heap.removeEmptyChildren
  have key : ∀ (l : List Ref) (U : Ref → Prop), l.foldl (fun h m => if (h.node m).name = rootID then h else h.unlink m) (h.without U) =
      h.without fun y => U y ∨ (y ∈ l ∧ (h.node y).name ≠ rootID) := by
    intro l
    induction l with
    | nil => intro U; simp
    | cons x l ih =>
      intro U
      rw [List.foldl_cons]
      have hn : ((h.without U).node x).name = (h.node x).name := rfl
      rw [hn]
      by_cases hx : (h.node x).name = rootID
      · rw [if_pos hx, ih]
        congr 1
        funext y
        apply propext
        constructor
        · rintro (h1 | ⟨h1, h2⟩)
          · exact Or.inl h1
          · exact Or.inr ⟨List.mem_cons_of_mem _ h1, h2⟩
        · rintro (h1 | ⟨h1, h2⟩)
          · exact Or.inl h1
          · rcases List.mem_cons.1 h1 with rfl | h1
            · exact absurd hx h2
            · exact Or.inr ⟨h1, h2⟩
      · rw [if_neg hx, unlink_without hl, ih]
        congr 1
        funext y
        apply propext
        constructor
        · rintro ((h1 | rfl) | ⟨h1, h2⟩)
          · exact Or.inl h1
          · exact Or.inr ⟨by simp, hx⟩
          · exact Or.inr ⟨List.mem_cons_of_mem _ h1, h2⟩
        · rintro (h1 | ⟨h1, h2⟩)
          · exact Or.inl (Or.inl h1)
          · rcases List.mem_cons.1 h1 with rfl | h1
            · exact Or.inl (Or.inr rfl)
            · exact Or.inr ⟨h1, h2⟩
  have := key (h.findAccounts r fun a => a.amount.quantity = 0) fun _ => False
  rw [Heap.without_nothing] at this
  rw [this]
  simp

/-! ### Removing what does not match -/

/-- Some account below or at `x` matches. -/
def Heap.MatchBelow (h : Heap) (m : Node → Bool) (x : Ref) : Prop := ∃ cs y, h.walk x cs = some y ∧ m (h.node y) = true

theorem matchBelow_iff (ht : h.Tree) {m : Node → Bool} {r : Ref} :
    h.MatchBelow m r ↔ m (h.node r) = true ∨ ∃ kc ∈ (h.node r).children, h.MatchBelow m kc.2 := by
  constructor
  · rintro ⟨cs, y, hy, hm⟩
    cases cs with
    | nil => cases hy; exact Or.inl hm
    | cons c cs =>
      rw [Heap.walk_cons, Option.bind_eq_some_iff] at hy
      obtain ⟨k, h1, h2⟩ := hy
      exact Or.inr ⟨(c, k), ht.child_iff.1 h1, cs, y, h2, hm⟩
  · rintro (h1 | ⟨⟨k, c⟩, hk, cs, y, hy, hm⟩)
    · exact ⟨[], r, rfl, h1⟩
    · exact ⟨k :: cs, y, by rw [Heap.walk_cons, ht.child_iff.2 hk]; exact hy, hm⟩

/-- What the removal below `r` takes out. -/
def Heap.Dead (h : Heap) (m : Node → Bool) (r x : Ref) : Prop := (∃ cs, cs ≠ [] ∧ h.walk r cs = some x) ∧ ¬ h.MatchBelow m x

theorem dead_iff (ht : h.Tree) {m : Node → Bool} {r x : Ref} :
    h.Dead m r x ↔ ∃ kc ∈ (h.node r).children, h.Dead m kc.2 x ∨ (x = kc.2 ∧ ¬ h.MatchBelow m kc.2) := by
  constructor
  · rintro ⟨⟨cs, hn, hx⟩, hm⟩
    cases cs with
    | nil => exact absurd rfl hn
    | cons c cs =>
      rw [Heap.walk_cons, Option.bind_eq_some_iff] at hx
      obtain ⟨k, h1, h2⟩ := hx
      refine ⟨(c, k), ht.child_iff.1 h1, ?_⟩
      by_cases hc : cs = []
      · subst hc; cases h2; exact Or.inr ⟨rfl, hm⟩
      · exact Or.inl ⟨⟨cs, hc, h2⟩, hm⟩
  · rintro ⟨⟨k, c⟩, hk, ⟨⟨cs, hn, hx⟩, hm⟩ | ⟨rfl, hm⟩⟩
    · exact ⟨⟨k :: cs, by simp, by rw [Heap.walk_cons, ht.child_iff.2 hk]; exact hx⟩, hm⟩
    · exact ⟨⟨[k], by simp, by rw [Heap.walk_cons, ht.child_iff.2 hk]; rfl⟩, hm⟩

open Classical in
theorem removeChildrenLoop_spec (hl : h.Linked) (m : Node → Bool) : ∀ (n : Nat) (r : Ref) (U : Ref → Prop), r < h.next → h.next ≤ r + n →
    (∀ cs x, h.walk r cs = some x → ¬ U x) →
    Heap.removeChildrenLoop m n r (h.without U) = (decide (h.MatchBelow m r), h.without fun x => U x ∨ h.Dead m r x) := by
  intro n
  induction n with
  | zero => intro r U h1 h2; omega
  | succ n ih =>
    intro r U h1 h2 hU
    rw [Heap.removeChildrenLoop]
    simp only
    have hch : ((h.without U).node r).children = (h.node r).children := by
      show (h.node r).children.filter (fun kc => ¬ U kc.2) = _
      rw [List.filter_eq_self]
      rintro ⟨k, c⟩ hk
      have := hU [k] c (by rw [Heap.walk_cons, hl.toTree.child_iff.2 hk]; rfl)
      simpa using this
    have hr0 : ¬ U r := hU [] r rfl
    have hnode : (h.without U).node r = h.node r := by
      refine Node.ext' rfl rfl rfl rfl ?_ hch rfl rfl
      show (if U r then none else (h.node r).parent) = _
      rw [if_neg hr0]
    rw [hch, hnode]
    have key : ∀ (l : List (Str × Ref)) (b : Bool) (us : List Ref) (Q : Ref → Prop), (∀ kc ∈ l, kc ∈ (h.node r).children) →
        (l.map Prod.fst).Nodup → (∀ kc ∈ l, ∀ cs x, h.walk kc.2 cs = some x → ¬ Q x) →
        l.foldl (fun (acc : (Bool × List Ref) × Heap) kc =>
          ((acc.1.1 || (Heap.removeChildrenLoop m n kc.2 acc.2).1,
            if (Heap.removeChildrenLoop m n kc.2 acc.2).1 then acc.1.2 else acc.1.2 ++ [kc.2]), (Heap.removeChildrenLoop m n kc.2 acc.2).2))
          ((b, us), h.without Q) =
        ((b || decide (∃ kc ∈ l, h.MatchBelow m kc.2), us ++ (l.filter fun kc => ¬ h.MatchBelow m kc.2).map Prod.snd),
          h.without fun x => Q x ∨ ∃ kc ∈ l, h.Dead m kc.2 x) := by
      intro l
      induction l with
      | nil => intro b us Q _ _ _; simp
      | cons kc l ihl =>
        intro b us Q hsub hn hQ
        obtain ⟨g1, g2, _, _⟩ := hl.down r kc.1 kc.2 (hsub kc (by simp))
        rw [List.foldl_cons, ih kc.2 Q g2 (by omega) (hQ kc (by simp))]
        simp only [List.map_cons, List.nodup_cons] at hn
        rw [ihl _ _ _ (fun x hx => hsub x (by simp [hx])) hn.2]
        · refine Prod.ext (Prod.ext ?_ ?_) ?_
          · simp only [List.mem_cons, exists_eq_or_imp, Bool.or_assoc]
            congr 1
            rw [Bool.eq_iff_iff]
            simp
          · simp only
            by_cases hm : h.MatchBelow m kc.2 <;> simp [hm]
          · simp only [List.mem_cons, exists_eq_or_imp, or_assoc]
        · rintro kc' hk' cs x hx (hq | ⟨⟨ds, _, hd⟩, _⟩)
          · exact hQ kc' (by simp [hk']) cs x hx hq
          · have := (hl.toTree.apart (hsub kc (by simp)) (hsub kc' (by simp [hk'])) hd hx).1
            exact hn.1 (List.mem_map.2 ⟨kc', hk', this.symm⟩)
    rw [key (h.node r).children (m (h.node r)) [] U (fun _ h => h) (hl.keys r) (by
      rintro ⟨k, c⟩ hk cs x hx
      exact hU (k :: cs) x (by rw [Heap.walk_cons, hl.toTree.child_iff.2 hk]; exact hx))]
    simp only [List.nil_append]
    rw [unlinkAll_without hl]
    refine Prod.ext ?_ ?_
    · simp only
      rw [Bool.eq_iff_iff]
      simp only [Bool.or_eq_true, decide_eq_true_eq]
      exact (matchBelow_iff hl.toTree).symm
    · simp only
      congr 1
      funext x
      apply propext
      rw [dead_iff hl.toTree]
      simp only [List.mem_map, List.mem_filter]
      constructor
      · rintro ((h3 | ⟨kc, h3, h4⟩) | ⟨kc, ⟨h3, h4⟩, rfl⟩)
        · exact Or.inl h3
        · exact Or.inr ⟨kc, h3, Or.inl h4⟩
        · exact Or.inr ⟨kc, h3, Or.inr ⟨rfl, by simpa using h4⟩⟩
      · rintro (h3 | ⟨kc, h3, h4 | ⟨rfl, h4⟩⟩)
        · exact Or.inl (Or.inl h3)
        · exact Or.inl (Or.inr ⟨kc, h3, h4⟩)
        · exact Or.inr ⟨kc, ⟨h3, by simpa using h4⟩, rfl⟩

open Classical in
theorem removeChildren_spec (hl : h.Linked) (m : Node → Bool) {r : Ref} (hr : r < h.next) :
    h.removeChildren r m = (decide (h.MatchBelow m r), h.without fun x => h.Dead m r x) := by
  have := removeChildrenLoop_spec hl m h.next r (fun _ => False) hr (by omega) (fun _ _ _ h => h)
  rw [Heap.without_nothing] at this
  unfold Heap.removeChildren
  rw [this]
  simp

/-! ### Pruning -/

open Classical in
/-- The tree with the children of a set of accounts forgotten. -/
noncomputable def Heap.clear (h : Heap) (P : Ref → Prop) : Heap :=
  { h with node := fun x => { h.node x with children := if P x then [] else (h.node x).children } }

theorem Heap.clear_nothing (h : Heap) : h.clear (fun _ => False) = h := by
  unfold Heap.clear
  simp

theorem pruneLoop_spec (ht : h.Tree) (target : Int) : ∀ (n : Nat) (depth : Int) (r : Ref) (P : Ref → Prop), r < h.next → h.next ≤ r + n →
    (∀ cs x, h.walk r cs = some x → ¬ P x) →
    Heap.pruneLoop target n depth r (h.clear P) =
      h.clear fun x => P x ∨ ∃ cs, h.walk r cs = some x ∧ depth + cs.length = target := by
  classical
  intro n
  induction n with
  | zero => intro depth r P h1 h2; omega
  | succ n ih =>
    intro depth r P h1 h2 hP
    rw [Heap.pruneLoop]
    by_cases hd : depth = target
    · rw [if_pos hd, Heap.node_modify, if_pos rfl]
      simp only [List.foldl_nil]
      refine Heap.ext' rfl (fun x => ?_) rfl rfl
      rw [Heap.node_modify]
      have hiff : (∃ cs, h.walk r cs = some x ∧ depth + cs.length = target) ↔ x = r := by
        constructor
        · rintro ⟨cs, h3, h4⟩
          have : cs = [] := List.length_eq_zero_iff.1 (by omega)
          subst this
          cases h3
          rfl
        · rintro rfl; exact ⟨[], rfl, by simpa using hd⟩
      by_cases hx : x = r
      · subst hx
        rw [if_pos rfl]
        refine Node.ext' rfl rfl rfl rfl rfl ?_ rfl rfl
        unfold Heap.clear
        simp only
        rw [if_pos (Or.inr (hiff.2 rfl))]
      · rw [if_neg hx]
        refine Node.ext' rfl rfl rfl rfl rfl ?_ rfl rfl
        unfold Heap.clear
        simp only [hiff, hx, or_false]
    · rw [if_neg hd]
      have hch : ((h.clear P).node r).children = (h.node r).children := by
        show (if P r then [] else _) = _
        rw [if_neg (hP [] r rfl)]
      rw [hch]
      have key : ∀ (l : List (Str × Ref)) (Q : Ref → Prop), (∀ kc ∈ l, kc ∈ (h.node r).children) → (l.map Prod.fst).Nodup →
          (∀ kc ∈ l, ∀ cs x, h.walk kc.2 cs = some x → ¬ Q x) →
          l.foldl (fun h kc => Heap.pruneLoop target n (depth + 1) kc.2 h) (h.clear Q) =
            h.clear fun x => Q x ∨ ∃ kc ∈ l, ∃ cs, h.walk kc.2 cs = some x ∧ depth + 1 + cs.length = target := by
        intro l
        induction l with
        | nil => intro Q _ _ _; simp
        | cons kc l ihl =>
          intro Q hsub hn hQ
          obtain ⟨g1, g2, _, _⟩ := ht.down r kc.1 kc.2 (hsub kc (by simp))
          rw [List.foldl_cons, ih (depth + 1) kc.2 Q g2 (by omega) (hQ kc (by simp))]
          simp only [List.map_cons, List.nodup_cons] at hn
          rw [ihl _ (fun x hx => hsub x (by simp [hx])) hn.2]
          · simp only [List.mem_cons, exists_eq_or_imp, or_assoc]
          · rintro kc' hk' cs x hx (hq | ⟨ds, hds, _⟩)
            · exact hQ kc' (by simp [hk']) cs x hx hq
            · have := (ht.apart (hsub kc (by simp)) (hsub kc' (by simp [hk'])) hds hx).1
              exact hn.1 (List.mem_map.2 ⟨kc', hk', this.symm⟩)
      rw [key _ P (fun _ h => h) (ht.keys r) (by
        rintro ⟨k, c⟩ hk cs x hx
        exact hP (k :: cs) x (by rw [Heap.walk_cons, ht.child_iff.2 hk]; exact hx))]
      congr 1
      funext x
      apply propext
      constructor
      · rintro (h3 | ⟨⟨k, c⟩, h3, cs, h4, h5⟩)
        · exact Or.inl h3
        · exact Or.inr ⟨k :: cs, by rw [Heap.walk_cons, ht.child_iff.2 h3]; exact h4, by simp only [List.length_cons]; omega⟩
      · rintro (h3 | ⟨cs, h4, h5⟩)
        · exact Or.inl h3
        · cases cs with
          | nil => exact absurd (by simpa using h5) hd
          | cons c cs =>
            rw [Heap.walk_cons, Option.bind_eq_some_iff] at h4
            obtain ⟨k, h6, h7⟩ := h4
            exact Or.inr ⟨(c, k), ht.child_iff.1 h6, cs, h7, by simp only [List.length_cons] at h5; omega⟩

theorem Heap.clear_walk (P : Ref → Prop) (cs : List Str) : ∀ (r x : Ref), (h.clear P).walk r cs = some x ↔
    h.walk r cs = some x ∧ ∀ es y, es <+: cs → es ≠ cs → h.walk r es = some y → ¬ P y := by
  classical
  induction cs with
  | nil =>
    intro r x
    rw [Heap.walk_nil, Heap.walk_nil]
    exact ⟨fun h => ⟨h, fun es y he hn => absurd (List.prefix_nil.1 he) hn⟩, fun h => h.1⟩
  | cons c cs ih =>
    intro r x
    rw [Heap.walk_cons, Heap.walk_cons, Option.bind_eq_some_iff, Option.bind_eq_some_iff]
    have hch : ∀ k, (h.clear P).child r c = some k ↔ h.child r c = some k ∧ ¬ P r := by
      intro k
      show lookupKey c (if P r then [] else (h.node r).children) = some k ↔ _
      by_cases hp : P r
      · rw [if_pos hp]; simp [lookupKey, hp]
      · rw [if_neg hp]; simp [hp, Heap.child]
    constructor
    · rintro ⟨k, h1, h2⟩
      rw [hch] at h1
      rw [ih] at h2
      refine ⟨⟨k, h1.1, h2.1⟩, fun es y he hn hy => ?_⟩
      cases es with
      | nil => cases hy; exact h1.2
      | cons e es =>
        rw [List.cons_prefix_cons] at he
        obtain ⟨rfl, he⟩ := he
        rw [Heap.walk_cons, h1.1, Option.bind_some] at hy
        exact h2.2 es y he (fun hh => hn (by rw [hh])) hy
    · rintro ⟨⟨k, h1, h2⟩, h3⟩
      refine ⟨k, (hch k).2 ⟨h1, h3 [] r (by simp) (by simp) rfl⟩, ?_⟩
      rw [ih]
      exact ⟨h2, fun es y he hn hy => h3 (c :: es) y (by simpa using he) (by simpa using hn) (by rw [Heap.walk_cons, h1]; exact hy)⟩

theorem Heap.clear_tree (ht : h.Tree) (P : Ref → Prop) : (h.clear P).Tree := by
  classical
  refine ⟨ht.root, fun r k c hm => ?_, fun r => ?_⟩
  · have hm' : (k, c) ∈ if P r then [] else (h.node r).children := hm
    by_cases hp : P r
    · rw [if_pos hp] at hm'; cases hm'
    · rw [if_neg hp] at hm'; exact ht.down r k c hm'
  · show ((if P r then [] else (h.node r).children).map Prod.fst).Nodup
    by_cases hp : P r
    · rw [if_pos hp]; simp
    · rw [if_neg hp]; exact ht.keys r

end Gledger
