import Verif.Spec.Accounts
import Mathlib.Data.List.Nodup
import Mathlib.Data.List.Infix

/-! Walking account trees; finding and creating accounts. -/

namespace Gledger

theorem lookupKey_mem {k : Str} {r : Ref} : ∀ {l : List (Str × Ref)}, lookupKey k l = some r → (k, r) ∈ l := by
  intro l
  induction l with
  | nil => intro h; cases h
  | cons x xs ih =>
    obtain ⟨a, b⟩ := x
    intro h
    rw [lookupKey] at h
    by_cases hk : a = k
    · rw [if_pos hk] at h; cases h; subst hk; simp
    · rw [if_neg hk] at h; exact List.mem_cons_of_mem _ (ih h)

theorem lookupKey_of_mem {k : Str} {r : Ref} : ∀ {l : List (Str × Ref)}, (l.map Prod.fst).Nodup → (k, r) ∈ l → lookupKey k l = some r := by
  intro l
  induction l with
  | nil => intro _ h; cases h
  | cons x xs ih =>
    obtain ⟨a, b⟩ := x
    intro hn h
    simp only [List.map_cons, List.nodup_cons] at hn
    rw [lookupKey]
    rcases List.mem_cons.1 h with h | h
    · cases h; rw [if_pos rfl]
    · rw [if_neg, ih hn.2 h]
      rintro rfl
      exact hn.1 (List.mem_map.2 ⟨(a, r), h, rfl⟩)

theorem lookupKey_none {k : Str} : ∀ {l : List (Str × Ref)}, lookupKey k l = none ↔ k ∉ l.map Prod.fst := by
  intro l
  induction l with
  | nil => simp [lookupKey]
  | cons x xs ih =>
    obtain ⟨a, b⟩ := x
    rw [lookupKey]
    by_cases hk : a = k
    · simp [hk]
    · rw [if_neg hk, ih]
      simp [Ne.symm hk]

theorem assignKey_new {k : Str} {r : Ref} : ∀ {l : List (Str × Ref)}, lookupKey k l = none → assignKey k r l = l ++ [(k, r)] := by
  intro l
  induction l with
  | nil => intro _; rfl
  | cons x xs ih =>
    obtain ⟨a, b⟩ := x
    intro h
    rw [lookupKey] at h
    by_cases hk : a = k
    · rw [if_pos hk] at h; cases h
    · rw [if_neg hk] at h
      rw [assignKey, if_neg hk, ih h]
      rfl

variable {h h' : Heap}

theorem Heap.Tree.child_iff (ht : h.Tree) {r c : Ref} {k : Str} : h.child r k = some c ↔ (k, c) ∈ (h.node r).children :=
  ⟨lookupKey_mem, lookupKey_of_mem (ht.keys r)⟩

theorem Heap.walk_nil (h : Heap) (r : Ref) : h.walk r [] = some r := rfl

theorem Heap.walk_cons (h : Heap) (r : Ref) (c : Str) (cs : List Str) :
    h.walk r (c :: cs) = (h.child r c).bind fun k => h.walk k cs := rfl

theorem Heap.walk_append (h : Heap) (r : Ref) (a b : List Str) : h.walk r (a ++ b) = (h.walk r a).bind fun k => h.walk k b := by
  induction a generalizing r with
  | nil => rfl
  | cons c cs ih =>
    rw [List.cons_append, walk_cons, walk_cons]
    cases h.child r c with
    | none => rfl
    | some k => exact ih k

theorem Heap.walk_snoc (h : Heap) (r : Ref) (a : List Str) (c : Str) : h.walk r (a ++ [c]) = (h.walk r a).bind fun k => h.child k c := by
  rw [walk_append]
  cases h.walk r a with
  | none => rfl
  | some k =>
    rw [Option.bind_some, Option.bind_some, walk_cons]
    cases h.child k c <;> rfl

theorem Heap.Tree.child_lt (ht : h.Tree) {r c : Ref} {k : Str} (hc : h.child r k = some c) :
    r < c ∧ c < h.next ∧ (h.node c).parent = some r ∧ (h.node c).name = k := ht.down r k c (lookupKey_mem hc)

theorem Heap.Tree.walk_lt (ht : h.Tree) {r x : Ref} {cs : List Str} (hw : h.walk r cs = some x) : r ≤ x ∧ (cs ≠ [] → r < x ∧ x < h.next) := by
  induction cs generalizing r with
  | nil => cases hw; simp
  | cons c cs ih =>
    rw [walk_cons, Option.bind_eq_some_iff] at hw
    obtain ⟨k, h1, h2⟩ := hw
    obtain ⟨h3, h4, _⟩ := ht.child_lt h1
    obtain ⟨h5, h6⟩ := ih h2
    refine ⟨by omega, fun _ => ⟨by omega, ?_⟩⟩
    by_cases hcs : cs = []
    · subst hcs; cases h2; exact h4
    · exact (h6 hcs).2

theorem Heap.Tree.walk_next (ht : h.Tree) {r x : Ref} {cs : List Str} (hr : r < h.next) (hw : h.walk r cs = some x) : x < h.next := by
  by_cases hcs : cs = []
  · subst hcs; cases hw; exact hr
  · exact ((ht.walk_lt hw).2 hcs).2

theorem Heap.Tree.at_next (ht : h.Tree) {x : Ref} {cs : List Str} (hw : h.at cs = some x) : x < h.next := ht.walk_next ht.root.1 hw

/-- An account is reached in one way only. -/
theorem Heap.Tree.walk_inj (ht : h.Tree) {r x : Ref} : ∀ {a b : List Str}, h.walk r a = some x → h.walk r b = some x → a = b := by
  intro a
  induction a using List.reverseRecOn generalizing x with
  | nil =>
    intro b h1 h2
    cases h1
    by_contra hb
    have := ((ht.walk_lt h2).2 (Ne.symm hb)).1
    omega
  | append_singleton as c ih =>
    intro b h1 h2
    rcases List.eq_nil_or_concat' b with rfl | ⟨bs, d, rfl⟩
    · cases h2
      have := ((ht.walk_lt h1).2 (by simp)).1
      omega
    · rw [walk_snoc, Option.bind_eq_some_iff] at h1 h2
      obtain ⟨k, h3, h4⟩ := h1
      obtain ⟨l, h5, h6⟩ := h2
      obtain ⟨_, _, e1, e2⟩ := ht.child_lt h4
      obtain ⟨_, _, e3, e4⟩ := ht.child_lt h6
      rw [e1] at e3
      cases e3
      rw [ih h3 h5, ← e2, ← e4]

/-- In a full tree every account is reached. -/
theorem Heap.Full.covers (hf : h.Full) : ∀ x, x < h.next → ∃ cs, h.at cs = some x := by
  intro x
  induction x using Nat.strong_induction_on with
  | _ x ih =>
    intro hx
    by_cases h0 : x = 0
    · exact ⟨[], by rw [h0]; rfl⟩
    · obtain ⟨p, hp⟩ := hf.all x hx h0
      have hm := hf.up x p hp
      obtain ⟨h1, _, _, _⟩ := hf.down _ _ _ hm
      obtain ⟨cs, hcs⟩ := ih p h1 (by omega)
      refine ⟨cs ++ [(h.node x).name], ?_⟩
      simp only [Heap.at] at hcs ⊢
      rw [walk_snoc, hcs]
      exact (hf.toTree.child_iff).2 hm

/-! ### Growing trees -/

/-- `h'` has all the accounts of `h`, with the same data, and new ones with no amount. -/
structure Heap.Grows (h h' : Heap) : Prop where
  next : h.next ≤ h'.next
  old : ∀ r, r < h.next → (h'.node r).name = (h.node r).name ∧ (h'.node r).path = (h.node r).path ∧
    (h'.node r).comps = (h.node r).comps ∧ (h'.node r).amount = (h.node r).amount ∧ (h'.node r).parent = (h.node r).parent ∧
    (h'.node r).postings = (h.node r).postings ∧ (h'.node r).transactions = (h.node r).transactions
  kids : ∀ r k c, h.child r k = some c → h'.child r k = some c
  new : ∀ r, h.next ≤ r → r < h'.next → (h'.node r).amount = Amount.zero ∧ (h'.node r).postings = [] ∧ (h'.node r).transactions = []

theorem Heap.Grows.refl (h : Heap) : h.Grows h :=
  ⟨le_rfl, fun _ _ => ⟨rfl, rfl, rfl, rfl, rfl, rfl, rfl⟩, fun _ _ _ h => h, fun r h1 h2 => by omega⟩

theorem Heap.Grows.trans {h₁ h₂ h₃ : Heap} (a : h₁.Grows h₂) (b : h₂.Grows h₃) : h₁.Grows h₃ := by
  refine ⟨a.next.trans b.next, fun r hr => ?_, fun r k c h => b.kids r k c (a.kids r k c h), fun r h1 h2 => ?_⟩
  · obtain ⟨a1, a2, a3, a4, a5, a6, a7⟩ := a.old r hr
    obtain ⟨b1, b2, b3, b4, b5, b6, b7⟩ := b.old r (lt_of_lt_of_le hr a.next)
    exact ⟨b1.trans a1, b2.trans a2, b3.trans a3, b4.trans a4, b5.trans a5, b6.trans a6, b7.trans a7⟩
  · by_cases hr : r < h₂.next
    · obtain ⟨b1, b2, b3, b4, b5, b6, b7⟩ := b.old r hr
      obtain ⟨a1, a2, a3⟩ := a.new r h1 hr
      exact ⟨b4.trans a1, b6.trans a2, b7.trans a3⟩
    · exact b.new r (by omega) h2

theorem Heap.Grows.walk (g : h.Grows h') {r x : Ref} {cs : List Str} (hw : h.walk r cs = some x) : h'.walk r cs = some x := by
  induction cs generalizing r with
  | nil => exact hw
  | cons c cs ih =>
    rw [walk_cons, Option.bind_eq_some_iff] at hw ⊢
    obtain ⟨k, h1, h2⟩ := hw
    exact ⟨k, g.kids _ _ _ h1, ih h2⟩

theorem Heap.Grows.has (g : h.Grows h') {cs : List Str} (hw : h.Has cs) : h'.Has cs := by
  unfold Heap.Has at *
  rw [Option.isSome_iff_exists] at *
  obtain ⟨x, hx⟩ := hw
  exact ⟨x, g.walk hx⟩

/-! ### One new child -/

/-- The node made for a new child. -/
structure NewChild (h : Heap) (p : Ref) (c : Str) (h' : Heap) : Prop where
  next : h'.next = h.next + 1
  self : (h'.node h.next).name = c ∧ (h'.node h.next).parent = some p ∧ (h'.node h.next).children = [] ∧
    (h'.node h.next).amount = Amount.zero ∧ (h'.node h.next).postings = [] ∧ (h'.node h.next).transactions = []
  parent : h'.node p = { h.node p with children := assignKey c h.next (h.node p).children }
  other : ∀ r, r ≠ p → r ≠ h.next → h'.node r = h.node r

theorem createPathLoop_congr (hh : ∀ r, (h'.node r).parent = (h.node r).parent ∧ (h'.node r).name = (h.node r).name) :
    ∀ n r s, h'.createPathLoop n r s = h.createPathLoop n r s := by
  intro n
  induction n with
  | zero => intro r s; rfl
  | succ n ih =>
    intro r s
    rw [Heap.createPathLoop, Heap.createPathLoop, (hh r).1]
    cases (h.node r).parent with
    | none => rfl
    | some p => simp only [(hh p).2, ih]

theorem newChild_spec (h : Heap) (p : Ref) (c : Str) (hp : p < h.next) :
    (h.newChild p c).1 = h.next ∧ NewChild h p c (h.newChild p c).2 ∧
    ((h.newChild p c).2.node h.next).path = (h.newChild p c).2.createPath h.next := by
  have hne : p ≠ h.next := by omega
  have hne' : h.next ≠ p := by omega
  refine ⟨rfl, ?_, ?_⟩
  · unfold Heap.newChild
    by_cases ht : isRootName (h.node p).name = true
    · simp only [ht, if_true, Heap.literal, Heap.modify, Heap.set]
      refine ⟨rfl, ?_, ?_, ?_⟩
      · simp [hne']
      · simp [hne]
      · intro r h1 h2; simp [h1, h2]
    · by_cases hc : (h.node p).comps.len < (h.node p).comps.cap
      · simp only [ht, Heap.append, hc, if_true, Heap.modify, Heap.set]
        refine ⟨rfl, ?_, ?_, ?_⟩
        · simp [hne']
        · simp [hne]
        · intro r h1 h2; simp [h1, h2]
      · simp only [ht, Heap.append, hc, Heap.modify, Heap.set]
        refine ⟨rfl, ?_, ?_, ?_⟩
        · simp [hne']
        · simp [hne]
        · intro r h1 h2; simp [h1, h2]
  · unfold Heap.newChild
    simp only
    generalize (if isRootName (h.node p).name = true then _ else _ : Slice × Heap) = sh
    obtain ⟨s, k⟩ := sh
    simp only [Heap.createPath, Heap.modify, Heap.set, if_true]
    symm
    apply createPathLoop_congr
    intro r
    by_cases hr : r = h.next <;> simp [hr]

theorem lookupKey_snoc (k c : Str) (n : Ref) : ∀ l : List (Str × Ref),
    lookupKey k (l ++ [(c, n)]) = match lookupKey k l with | some r => some r | none => if c = k then some n else none := by
  intro l
  induction l with
  | nil => rfl
  | cons x xs ih =>
    obtain ⟨a, b⟩ := x
    rw [List.cons_append, lookupKey, lookupKey]
    by_cases hk : a = k
    · simp [hk]
    · rw [if_neg hk, if_neg hk, ih]

namespace NewChild

variable {p : Ref} {c : Str}

theorem child (n : NewChild h p c h') (hp : p < h.next) (hc : h.child p c = none) (r : Ref) (k : Str) :
    h'.child r k = if r = p ∧ k = c then some h.next else if r = h.next then none else h.child r k := by
  by_cases h1 : r = p
  · subst h1
    unfold Heap.child at hc ⊢
    rw [n.parent]
    simp only [true_and]
    rw [assignKey_new hc, lookupKey_snoc]
    by_cases hk : k = c
    · subst hk
      rw [hc]
      simp
    · rw [if_neg hk, if_neg (Ne.symm hk), if_neg (Nat.ne_of_lt hp)]
      cases lookupKey k (h.node r).children with
      | none => rfl
      | some x => rfl
  · rw [if_neg (by simp [h1])]
    by_cases h2 : r = h.next
    · subst h2
      rw [if_pos rfl]
      unfold Heap.child
      rw [n.self.2.2.1]
      rfl
    · rw [if_neg h2]
      unfold Heap.child
      rw [n.other r h1 h2]

theorem full (n : NewChild h p c h') (hf : h.Full) (hp : p < h.next) (hc : h.child p c = none) : h'.Full := by
  have hch : (h'.node p).children = (h.node p).children ++ [(c, h.next)] := by
    rw [n.parent]; exact assignKey_new hc
  have hpar : ∀ r, r ≠ h.next → (h'.node r).parent = (h.node r).parent ∧ (h'.node r).name = (h.node r).name := by
    intro r hr
    by_cases h1 : r = p
    · subst h1; rw [n.parent]; exact ⟨rfl, rfl⟩
    · rw [n.other r h1 hr]; exact ⟨rfl, rfl⟩
  have hroot : (0 : Nat) ≠ h.next := by have := hf.root.1; omega
  refine ⟨⟨⟨⟨by rw [n.next]; omega, ?_⟩, ?_, ?_⟩, ?_⟩, ?_⟩
  · rw [(hpar 0 hroot).1]; exact hf.root.2
  · intro r k x hm
    by_cases h1 : r = p
    · subst h1
      rw [hch] at hm
      rcases List.mem_append.1 hm with hm | hm
      · obtain ⟨h2, h3, h4, h5⟩ := hf.down _ _ _ hm
        have := hpar x (by omega)
        refine ⟨h2, by rw [n.next]; omega, by rw [this.1]; exact h4, by rw [this.2]; exact h5⟩
      · simp only [List.mem_singleton, Prod.mk.injEq] at hm
        obtain ⟨rfl, rfl⟩ := hm
        exact ⟨hp, by rw [n.next]; omega, n.self.2.1, n.self.1⟩
    · by_cases h2 : r = h.next
      · subst h2; rw [n.self.2.2.1] at hm; cases hm
      · rw [n.other r h1 h2] at hm
        obtain ⟨h2, h3, h4, h5⟩ := hf.down _ _ _ hm
        have := hpar x (by omega)
        refine ⟨h2, by rw [n.next]; omega, by rw [this.1]; exact h4, by rw [this.2]; exact h5⟩
  · intro r
    by_cases h1 : r = p
    · subst h1
      rw [hch, List.map_append, List.nodup_append]
      refine ⟨hf.keys _, by simp, ?_⟩
      intro a ha b hb
      simp only [List.map_cons, List.map_nil, List.mem_singleton] at hb
      subst hb
      rintro rfl
      exact lookupKey_none.1 hc ha
    · by_cases h2 : r = h.next
      · subst h2; rw [n.self.2.2.1]; simp
      · rw [n.other r h1 h2]; exact hf.keys r
  · intro x q hq
    by_cases h1 : x = h.next
    · subst h1
      rw [n.self.2.1] at hq
      cases hq
      rw [hch, n.self.1]
      simp
    · rw [(hpar x h1).1] at hq
      have := hf.up x q hq
      rw [(hpar x h1).2]
      by_cases h2 : q = p
      · subst h2; rw [hch]; simp [this]
      · have hq' := (hf.down _ _ _ this)
        rw [n.other q h2 (by omega)]
        exact this
  · intro r hr h0
    by_cases h1 : r = h.next
    · subst h1; exact ⟨p, n.self.2.1⟩
    · rw [(hpar r h1).1]
      exact hf.all r (by rw [n.next] at hr; omega) h0

theorem grows (n : NewChild h p c h') (hf : h.Full) (hp : p < h.next) (hc : h.child p c = none) : h.Grows h' := by
  refine ⟨by rw [n.next]; omega, fun r hr => ?_, fun r k x hx => ?_, fun r h1 h2 => ?_⟩
  · by_cases h1 : r = p
    · subst h1; rw [n.parent]; exact ⟨rfl, rfl, rfl, rfl, rfl, rfl, rfl⟩
    · rw [n.other r h1 (by omega)]; exact ⟨rfl, rfl, rfl, rfl, rfl, rfl, rfl⟩
  · rw [n.child hp hc]
    have := hf.toTree.child_lt hx
    rw [if_neg, if_neg (by omega), hx]
    rintro ⟨rfl, rfl⟩
    rw [hc] at hx
    cases hx
  · have : r = h.next := by rw [n.next] at h2; omega
    subst this
    exact ⟨n.self.2.2.2.1, n.self.2.2.2.2.1, n.self.2.2.2.2.2⟩

/-- The walks in the tree with the new child. -/
theorem walk (n : NewChild h p c h') (hf : h.Full) (hp : p < h.next) (hc : h.child p c = none) (cs : List Str) :
    ∀ (r x : Ref), r < h.next → h'.walk r cs = some x →
      (x < h.next ∧ h.walk r cs = some x) ∨ (x = h.next ∧ ∃ bs, cs = bs ++ [c] ∧ h.walk r bs = some p) := by
  induction cs with
  | nil => intro r x hr hw; cases hw; exact Or.inl ⟨hr, rfl⟩
  | cons d ds ih =>
    intro r x hr hw
    rw [Heap.walk_cons, n.child hp hc] at hw
    by_cases h1 : r = p ∧ d = c
    · rw [if_pos h1] at hw
      obtain ⟨rfl, rfl⟩ := h1
      right
      cases ds with
      | nil => cases hw; exact ⟨rfl, [], rfl, rfl⟩
      | cons e es =>
        simp only [Option.bind_some] at hw
        rw [Heap.walk_cons, n.child hp hc, if_neg (by omega), if_pos rfl] at hw
        cases hw
    · rw [if_neg h1, if_neg (by omega)] at hw
      cases hk : h.child r d with
      | none => rw [hk] at hw; cases hw
      | some k =>
        rw [hk] at hw
        have hlt := (hf.toTree.child_lt hk).2.1
        rcases ih k x hlt hw with ⟨h2, h3⟩ | ⟨h2, bs, rfl, h4⟩
        · left; refine ⟨h2, ?_⟩; rw [Heap.walk_cons, hk]; exact h3
        · right; refine ⟨h2, d :: bs, rfl, ?_⟩; rw [Heap.walk_cons, hk]; exact h4

end NewChild

/-! ### Finding and creating -/

theorem isSome_walk {cs : List Str} {r : Ref} : (h.walk r cs).isSome = true ↔ ∃ x, h.walk r cs = some x := Option.isSome_iff_exists

theorem has_iff {cs : List Str} : h.Has cs ↔ ∃ x, h.at cs = some x := Option.isSome_iff_exists

theorem newAccountWithChildren_spec (cs : List Str) : ∀ (h : Heap) (p : Ref) (bs : List Str), h.Full → h.at bs = some p →
    (∀ c, cs.head? = some c → h.child p c = none) →
    ∃ r h', h.newAccountWithChildren p cs = (r, h') ∧ h'.Full ∧ h.Grows h' ∧ h'.at (bs ++ cs) = some r ∧
      ∀ ds, h'.Has ds ↔ h.Has ds ∨ ∃ es, es <+: cs ∧ ds = bs ++ es := by
  induction cs with
  | nil =>
    intro h p bs hf hb _
    refine ⟨p, h, rfl, hf, .refl h, by simpa using hb, fun ds => ⟨Or.inl, ?_⟩⟩
    rintro (h1 | ⟨es, h1, rfl⟩)
    · exact h1
    · rw [List.prefix_nil] at h1
      subst h1
      rw [List.append_nil]
      exact has_iff.2 ⟨p, hb⟩
  | cons c cs ih =>
    intro h p bs hf hb hc
    have hc' := hc c rfl
    have hp : p < h.next := hf.toTree.at_next hb
    obtain ⟨e1, n, _⟩ := newChild_spec h p c hp
    generalize hx : h.newChild p c = x at e1 n
    obtain ⟨r1, h1⟩ := x
    simp only at e1 n
    subst e1
    have hf1 := n.full hf hp hc'
    have g1 := n.grows hf hp hc'
    have hb1 : h1.at (bs ++ [c]) = some h.next := by
      simp only [Heap.at]
      rw [Heap.walk_snoc, g1.walk hb, Option.bind_some, n.child hp hc', if_pos ⟨rfl, rfl⟩]
    obtain ⟨r, h', e2, f2, g2, w2, p2⟩ := ih h1 h.next (bs ++ [c]) hf1 hb1 (by
      intro d _
      rw [n.child hp hc', if_neg (by omega), if_pos rfl])
    refine ⟨r, h', ?_, f2, g1.trans g2, by simpa using w2, fun ds => ?_⟩
    · rw [Heap.newAccountWithChildren, hx]; exact e2
    · rw [p2]
      have hs : h1.Has ds ↔ h.Has ds ∨ ds = bs ++ [c] := by
        constructor
        · intro hd
          obtain ⟨x, hx⟩ := has_iff.1 hd
          rcases n.walk hf hp hc' ds 0 x hf.root.1 hx with ⟨_, h3⟩ | ⟨_, es, rfl, h4⟩
          · exact Or.inl (has_iff.2 ⟨x, h3⟩)
          · right; rw [hf.toTree.walk_inj h4 hb]
        · rintro (hd | rfl)
          · exact g1.has hd
          · exact has_iff.2 ⟨_, hb1⟩
      rw [hs]
      constructor
      · rintro ((h3 | rfl) | ⟨es, h4, rfl⟩)
        · exact Or.inl h3
        · exact Or.inr ⟨[c], by simp, rfl⟩
        · exact Or.inr ⟨c :: es, by simpa using h4, by simp⟩
      · rintro (h3 | ⟨es, h4, rfl⟩)
        · exact Or.inl (Or.inl h3)
        · cases es with
          | nil => rw [List.append_nil]; exact Or.inl (Or.inl (has_iff.2 ⟨p, hb⟩))
          | cons e es =>
            rw [List.cons_prefix_cons] at h4
            obtain ⟨rfl, h4⟩ := h4
            exact Or.inr ⟨es, h4, by simp⟩

theorem findChild_spec (h : Heap) (cs : List Str) : ∀ r, cs ≠ [] →
    ∃ k rest done, h.findChild r cs = some (k, rest) ∧ cs = done ++ rest ∧ h.walk r done = some k ∧
      (∀ c, rest.head? = some c → h.child k c = none) := by
  induction cs with
  | nil => intro r hn; exact absurd rfl hn
  | cons c cs ih =>
    intro r _
    cases cs with
    | nil =>
      rw [Heap.findChild]
      cases hc : h.child r c with
      | none => exact ⟨r, [c], [], rfl, rfl, rfl, by simpa using hc⟩
      | some k => exact ⟨k, [], [c], rfl, rfl, by rw [Heap.walk_cons, hc]; rfl, by simp⟩
    | cons d ds =>
      rw [Heap.findChild]
      cases hc : h.child r c with
      | none => exact ⟨r, c :: d :: ds, [], rfl, rfl, rfl, by simpa using hc⟩
      | some k =>
        obtain ⟨k', rest, done, e1, e2, e3, e4⟩ := ih k (by simp)
        exact ⟨k', rest, c :: done, e1, by rw [e2]; rfl, by rw [Heap.walk_cons, hc]; exact e3, e4⟩

theorem prefix_append_cases {α : Type} {es as bs : List α} (h : es <+: as ++ bs) :
    es <+: as ∨ ∃ fs, es = as ++ fs ∧ fs <+: bs := by
  obtain ⟨t, ht⟩ := h
  rcases List.append_eq_append_iff.1 ht with ⟨u, h1, h2⟩ | ⟨u, h1, h2⟩
  · exact Or.inl ⟨u, h1.symm⟩
  · exact Or.inr ⟨u, h1, ⟨t, h2.symm⟩⟩

/-- `FindOrCreateAccount` on an account of the tree: the account reached by the names is returned; the accounts on the way
exist afterwards, and no others are new; everything else is as it was. -/
theorem findOrCreate_spec (hf : h.Full) {r : Ref} {bs : List Str} (hb : h.at bs = some r) {cs : List Str} (hcs : cs ≠ []) :
    ∃ x h', h.findOrCreate r cs = some (x, h') ∧ h'.Full ∧ h.Grows h' ∧ h'.at (bs ++ cs) = some x ∧
      (∀ ds, h'.Has ds ↔ h.Has ds ∨ ∃ es, es <+: cs ∧ ds = bs ++ es) ∧ (h.Has (bs ++ cs) → h' = h) := by
  obtain ⟨k, rest, done, e1, e2, e3, e4⟩ := findChild_spec h cs r hcs
  have hk : h.at (bs ++ done) = some k := by
    simp only [Heap.at] at *
    rw [Heap.walk_append, hb]
    exact e3
  unfold Heap.findOrCreate
  rw [e1]
  cases rest with
  | nil =>
    rw [List.append_nil] at e2
    subst e2
    refine ⟨k, h, rfl, hf, .refl h, hk, fun ds => ⟨Or.inl, ?_⟩, fun _ => rfl⟩
    rintro (h1 | ⟨es, ⟨t, rfl⟩, rfl⟩)
    · exact h1
    · unfold Heap.Has
      simp only [Heap.at] at hk ⊢
      rw [← List.append_assoc, Heap.walk_append] at hk
      cases hw : h.walk 0 (bs ++ es) with
      | none => rw [hw] at hk; cases hk
      | some y => rfl
  | cons c rest =>
    obtain ⟨x, h', e5, f', g', w', p'⟩ := newAccountWithChildren_spec (c :: rest) h k (bs ++ done) hf hk e4
    refine ⟨x, h', by simp only [e5], f', g', by rw [e2]; simpa using w', fun ds => ?_, fun hh => ?_⟩
    · rw [p']
      constructor
      · rintro (h1 | ⟨es, h1, rfl⟩)
        · exact Or.inl h1
        · exact Or.inr ⟨done ++ es, by rw [e2]; exact (List.prefix_append_right_inj done).2 h1, by simp⟩
      · rintro (h1 | ⟨es, h1, rfl⟩)
        · exact Or.inl h1
        · rw [e2] at h1
          rcases prefix_append_cases h1 with h2 | ⟨fs, rfl, h2⟩
          · left
            obtain ⟨t, rfl⟩ := h2
            unfold Heap.Has
            simp only [Heap.at] at hk ⊢
            rw [← List.append_assoc, Heap.walk_append] at hk
            cases hw : h.walk 0 (bs ++ es) with
            | none => rw [hw] at hk; cases hk
            | some y => rfl
          · exact Or.inr ⟨fs, h2, by simp⟩
    · exfalso
      obtain ⟨y, hy⟩ := has_iff.1 hh
      rw [e2] at hy
      simp only [Heap.at] at hk hy
      rw [← List.append_assoc, Heap.walk_append, hk, Option.bind_some, Heap.walk_cons, e4 c rfl] at hy
      cases hy

theorem newAccount_full (name : Str) : (newAccount name).Full := by
  refine ⟨⟨⟨⟨by simp [newAccount], by simp [newAccount]⟩, ?_, ?_⟩, ?_⟩, ?_⟩
  · intro r k c hm
    by_cases h : r = 0 <;> simp [newAccount, h] at hm
  · intro r
    by_cases h : r = 0 <;> simp [newAccount, h]
  · intro c p hp
    by_cases h : c = 0 <;> simp [newAccount, h] at hp
  · intro r hr h0
    simp [newAccount] at hr
    omega

end Gledger
