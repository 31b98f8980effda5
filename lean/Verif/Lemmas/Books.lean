import Verif.Lemmas.Tree
import Verif.Model.Cmd
import Mathlib.Algebra.BigOperators.Group.List.Basic

/-! Adding postings to an account tree. -/

namespace Gledger

variable {h h' : Heap}

theorem Heap.Shape.refl (h : Heap) : h.Shape h := ⟨rfl, fun _ => ⟨rfl, rfl, rfl, rfl, rfl⟩, rfl, rfl⟩

theorem Heap.Shape.trans {h₁ h₂ h₃ : Heap} (a : h₁.Shape h₂) (b : h₂.Shape h₃) : h₁.Shape h₃ := by
  refine ⟨b.next.trans a.next, fun r => ?_, b.arrs.1.trans a.arrs.1, b.arrs.2.trans a.arrs.2⟩
  obtain ⟨a1, a2, a3, a4, a5⟩ := a.node r
  obtain ⟨b1, b2, b3, b4, b5⟩ := b.node r
  exact ⟨b1.trans a1, b2.trans a2, b3.trans a3, b4.trans a4, b5.trans a5⟩

theorem Heap.Shape.child (s : h.Shape h') (r : Ref) (k : Str) : h'.child r k = h.child r k := by
  unfold Heap.child
  rw [(s.node r).2.2.2.2]

theorem Heap.Shape.walk (s : h.Shape h') (cs : List Str) : ∀ r, h'.walk r cs = h.walk r cs := by
  induction cs with
  | nil => intro r; rfl
  | cons c cs ih =>
    intro r
    rw [walk_cons, walk_cons, s.child]
    cases h.child r c with
    | none => rfl
    | some k => exact ih k

theorem Heap.Shape.at (s : h.Shape h') (cs : List Str) : h'.at cs = h.at cs := s.walk cs 0

theorem Heap.Shape.has (s : h.Shape h') (cs : List Str) : h'.Has cs ↔ h.Has cs := by
  unfold Heap.Has
  rw [s.at]

theorem Heap.Shape.tree (s : h.Shape h') (ht : h.Tree) : h'.Tree := by
  refine ⟨?_, fun r k c hm => ?_, fun r => ?_⟩
  · rw [s.next, (s.node 0).2.2.2.1]; exact ht.root
  · rw [(s.node r).2.2.2.2] at hm
    rw [s.next, (s.node c).1, (s.node c).2.2.2.1]
    exact ht.down r k c hm
  · rw [(s.node r).2.2.2.2]; exact ht.keys r

theorem Heap.Shape.linked (s : h.Shape h') (ht : h.Linked) : h'.Linked := by
  refine ⟨s.tree ht.toTree, fun c p hp => ?_⟩
  rw [(s.node c).2.2.2.1] at hp
  rw [(s.node c).1, (s.node p).2.2.2.2]
  exact ht.up c p hp

theorem Heap.Shape.full (s : h.Shape h') (ht : h.Full) : h'.Full := by
  refine ⟨s.linked ht.toLinked, fun r hr h0 => ?_⟩
  rw [(s.node r).2.2.2.1]
  exact ht.all r (by rw [s.next] at hr; exact hr) h0

theorem Heap.Shape.modify (h : Heap) (r : Ref) (f : Node → Node) (hf : ∀ n, (f n).name = n.name ∧ (f n).path = n.path ∧
    (f n).comps = n.comps ∧ (f n).parent = n.parent ∧ (f n).children = n.children) : h.Shape (h.modify r f) := by
  refine ⟨rfl, fun x => ?_, rfl, rfl⟩
  unfold Heap.modify Heap.set
  by_cases hx : x = r
  · subst hx; simp only [if_true]; exact hf _
  · simp [hx]

theorem Heap.node_modify (h : Heap) (r x : Ref) (f : Node → Node) : (h.modify r f).node x = if x = r then f (h.node r) else h.node x := rfl

/-- Walking up changes the amounts of the ancestors. -/
theorem walkLoop_spec (f : Amount → Amount) : ∀ (n : Nat) (cs : List Str) (x : Ref) (h : Heap), h.Tree → h.at cs = some x → x < n →
    h.Shape (Heap.walkLoop f n x h) ∧
    (∀ y, ((Heap.walkLoop f n x h).node y).postings = (h.node y).postings) ∧
    ∀ ds y, h.at ds = some y →
      ((Heap.walkLoop f n x h).node y).amount = if ds <+: cs then f (h.node y).amount else (h.node y).amount := by
  intro n
  induction n with
  | zero => intro cs x h _ _ hx; omega
  | succ n ih =>
    intro cs x h ht hcs hx
    rw [Heap.walkLoop]
    set h1 := h.modify x (fun a => { a with amount := f a.amount }) with hh1
    have s1 : h.Shape h1 := Heap.Shape.modify h x _ (fun n => ⟨rfl, rfl, rfl, rfl, rfl⟩)
    have ha : ∀ y, (h1.node y).amount = if y = x then f (h.node y).amount else (h.node y).amount := by
      intro y
      rw [hh1, Heap.node_modify]
      by_cases hy : y = x
      · subst hy; simp
      · simp [hy]
    have hpo : ∀ y, (h1.node y).postings = (h.node y).postings := by
      intro y
      rw [hh1, Heap.node_modify]
      by_cases hy : y = x
      · subst hy; simp
      · simp [hy]
    have heq : ∀ ds y, h.at ds = some y → (y = x ↔ ds = cs) := by
      intro ds y hy
      constructor
      · rintro rfl; exact ht.walk_inj hy hcs
      · rintro rfl; rw [hcs] at hy; cases hy; rfl
    rw [(s1.node x).2.2.2.1]
    rcases List.eq_nil_or_concat' cs with rfl | ⟨bs, c, rfl⟩
    · have h0 : x = 0 := by cases hcs; rfl
      rw [h0, ht.root.2]
      refine ⟨s1, hpo, fun ds y hy => ?_⟩
      simp only [ha, heq ds y hy, List.prefix_nil]
    · have hcs' := hcs
      simp only [Heap.at] at hcs
      rw [Heap.walk_snoc, Option.bind_eq_some_iff] at hcs
      obtain ⟨p, h2, h3⟩ := hcs
      obtain ⟨h4, h5, h6, h7⟩ := ht.child_lt h3
      rw [h6]
      obtain ⟨i1, i2, i3⟩ := ih bs p h1 (s1.tree ht) (by rw [s1.at]; exact h2) (by omega)
      refine ⟨s1.trans i1, fun y => (i2 y).trans (hpo y), fun ds y hy => ?_⟩
      rw [i3 ds y (by rw [s1.at]; exact hy), ha]
      simp only [heq ds y hy]
      by_cases hd : ds = bs ++ [c]
      · subst hd
        have hnp : ¬ bs ++ [c] <+: bs := by
          intro hpre
          have := hpre.length_le
          simp at this
          omega
        rw [if_neg hnp, if_pos rfl, if_pos List.prefix_rfl]
      · rw [if_neg hd]
        congr 1
        rw [List.prefix_concat_iff]
        simp [hd]

theorem walkAncestors_spec (ht : h.Tree) {cs : List Str} {x : Ref} (hx : h.at cs = some x) (f : Amount → Amount) :
    h.Shape (h.walkAncestors x f) ∧ (∀ ds, (h.walkAncestors x f).own ds = h.own ds) ∧
    ∀ ds, h.Has ds → (h.walkAncestors x f).amt ds = if ds <+: cs then f (h.amt ds) else h.amt ds := by
  obtain ⟨i1, i2, i3⟩ := walkLoop_spec f h.next cs x h ht hx (ht.at_next hx)
  refine ⟨i1, fun ds => ?_, fun ds hd => ?_⟩
  · unfold Heap.own
    rw [show (h.walkAncestors x f).at ds = h.at ds from i1.at ds]
    cases h.at ds with
    | none => rfl
    | some y => exact i2 y
  · obtain ⟨y, hy⟩ := has_iff.1 hd
    unfold Heap.amt
    rw [show (h.walkAncestors x f).at ds = h.at ds from i1.at ds, hy]
    exact i3 ds y hy

theorem Heap.amt_none {cs : List Str} (hn : ¬ h.Has cs) : h.amt cs = Amount.zero := by
  unfold Heap.Has at hn
  unfold Heap.amt
  cases hc : h.at cs with
  | none => rfl
  | some x => rw [hc] at hn; simp at hn

theorem Heap.own_none {cs : List Str} (hn : ¬ h.Has cs) : h.own cs = [] := by
  unfold Heap.Has at hn
  unfold Heap.own
  cases hc : h.at cs with
  | none => rfl
  | some x => rw [hc] at hn; simp at hn

/-- New accounts have no amount and no postings; the others keep theirs. -/
theorem Heap.Grows.data (g : h.Grows h') (hf : h.Full) (hf' : h'.Tree) (cs : List Str) : h'.amt cs = h.amt cs ∧ h'.own cs = h.own cs := by
  by_cases hc : h.Has cs
  · obtain ⟨x, hx⟩ := has_iff.1 hc
    have hx' := g.walk hx
    unfold Heap.amt Heap.own
    simp only [Heap.at] at hx ⊢
    rw [hx, hx']
    obtain ⟨_, _, _, h4, _, h6, _⟩ := g.old x (hf.toTree.at_next hx)
    exact ⟨h4, h6⟩
  · rw [Heap.amt_none hc, Heap.own_none hc]
    by_cases hc' : h'.Has cs
    · obtain ⟨x, hx⟩ := has_iff.1 hc'
      have hn : h.next ≤ x := by
        by_contra hlt
        obtain ⟨bs, hb⟩ := hf.covers x (by omega)
        rw [hf'.walk_inj hx (g.walk hb)] at hc
        exact hc (has_iff.2 ⟨x, hb⟩)
      obtain ⟨n1, n2, _⟩ := g.new x hn (hf'.at_next hx)
      unfold Heap.amt Heap.own
      rw [hx]
      exact ⟨n1, n2⟩
    · rw [Heap.amt_none hc', Heap.own_none hc']; exact ⟨rfl, rfl⟩

/-- What adding a posting to a tree does, for the account with components `cs`, the change `f` of amounts and the posting `p`. -/
structure Posted (h : Heap) (cs : List Str) (f : Amount → Amount) (ps : List Posting) (h' : Heap) : Prop where
  full : h'.Full
  has : ∀ ds, h'.Has ds ↔ h.Has ds ∨ ds <+: cs
  amt : ∀ ds, h'.amt ds = if ds <+: cs then f (h.amt ds) else h.amt ds
  own : ∀ ds, h'.own ds = if ds = cs then h.own ds ++ ps else h.own ds
  old : h.next ≤ h'.next ∧ ∀ r, r < h.next → (h'.node r).name = (h.node r).name ∧ (h'.node r).path = (h.node r).path
  walk : ∀ ds x, h.at ds = some x → h'.at ds = some x

theorem Heap.has_nil (h : Heap) : h.Has [] := rfl

/-- Changing the data of one account. -/
theorem modify_data (ht : h.Tree) {cs : List Str} {x : Ref} (hx : h.at cs = some x) (f : Node → Node)
    (hf : ∀ n, (f n).name = n.name ∧ (f n).path = n.path ∧ (f n).comps = n.comps ∧ (f n).parent = n.parent ∧ (f n).children = n.children) :
    h.Shape (h.modify x f) ∧ (∀ ds, ds ≠ cs → (h.modify x f).amt ds = h.amt ds ∧ (h.modify x f).own ds = h.own ds) ∧
      (h.modify x f).amt cs = (f (h.node x)).amount ∧ (h.modify x f).own cs = (f (h.node x)).postings := by
  have s := Heap.Shape.modify h x f hf
  refine ⟨s, fun ds hd => ?_, ?_, ?_⟩
  · unfold Heap.amt Heap.own
    rw [s.at]
    cases hy : h.at ds with
    | none => exact ⟨rfl, rfl⟩
    | some y =>
      simp only [Option.map_some, Option.getD_some, Heap.node_modify]
      rw [if_neg]
      · exact ⟨rfl, rfl⟩
      · rintro rfl; exact hd (ht.walk_inj hy hx)
  · unfold Heap.amt
    rw [s.at, hx]
    simp [Heap.node_modify]
  · unfold Heap.own
    rw [s.at, hx]
    simp [Heap.node_modify]

theorem Heap.amt_at {cs : List Str} {x : Ref} (hx : h.at cs = some x) : h.amt cs = (h.node x).amount := by
  unfold Heap.amt; rw [hx]; rfl

theorem Heap.own_at {cs : List Str} {x : Ref} (hx : h.at cs = some x) : h.own cs = (h.node x).postings := by
  unfold Heap.own; rw [hx]; rfl

/-- Finding the account, recording the posting and changing the amounts above it. -/
theorem posted (hf : h.Full) {cs : List Str} (hcs : cs ≠ []) (g : Node → Node) (f : Amount → Amount) (ps : List Posting)
    (hg : ∀ n, (g n).name = n.name ∧ (g n).path = n.path ∧ (g n).comps = n.comps ∧ (g n).parent = n.parent ∧ (g n).children = n.children)
    (hg1 : ∀ n, (g n).amount = n.amount) (hg2 : ∀ n, (g n).postings = n.postings ++ ps) :
    ∃ x h1, h.findOrCreate 0 cs = some (x, h1) ∧ h1.at cs = some x ∧ Posted h cs f ps ((h1.modify x g).walkAncestors x f) := by
  obtain ⟨x, h1, e1, f1, g1, w1, p1, _⟩ := findOrCreate_spec hf (show h.at [] = some 0 from rfl) hcs
  rw [List.nil_append] at w1
  refine ⟨x, h1, e1, w1, ?_⟩
  obtain ⟨s2, d2, a2, o2⟩ := modify_data f1.toTree w1 g hg
  obtain ⟨s3, o3, a3⟩ := walkAncestors_spec (s2.tree f1.toTree) (by rw [s2.at]; exact w1) f
  have s := s2.trans s3
  have hdat := g1.data hf f1.toTree
  have hhas : ∀ ds, h1.Has ds ↔ h.Has ds ∨ ds <+: cs := by
    intro ds
    rw [p1]
    simp
  have ham : ∀ ds, (h1.modify x g).amt ds = h.amt ds := by
    intro ds
    by_cases hd : ds = cs
    · subst hd
      rw [a2, hg1, ← (hdat ds).1, Heap.amt_at w1]
    · rw [(d2 ds hd).1, (hdat ds).1]
  refine ⟨s.full f1, fun ds => by rw [s.has, hhas], fun ds => ?_, fun ds => ?_, ⟨by rw [s.next]; exact g1.next, fun r hr => ?_⟩, fun ds y hy => ?_⟩
  · by_cases hh : h1.Has ds
    · rw [a3 ds ((s2.has ds).2 hh), ham]
    · rw [Heap.amt_none (by rw [s.has]; exact hh)]
      rw [hhas] at hh
      rw [if_neg (fun hc => hh (Or.inr hc)), Heap.amt_none (fun hc => hh (Or.inl hc))]
  · rw [o3]
    by_cases hd : ds = cs
    · subst hd
      rw [if_pos rfl, o2, hg2, ← (hdat ds).2, Heap.own_at w1]
    · rw [if_neg hd, (d2 ds hd).2, (hdat ds).2]
  · rw [(s.node r).1, (s.node r).2.1]
    exact ⟨(g1.old r hr).1, (g1.old r hr).2.1⟩
  · rw [s.at]
    exact g1.walk hy

theorem Posting.components_ne (p : Posting) : p.components ≠ [] := by
  unfold Posting.components
  cases p.accountPath with
  | nil => simp [split]
  | cons c cs =>
    rw [split]
    by_cases hc : c = ':'
    · simp [hc]
    · rw [if_neg hc]
      cases split ':' cs <;> simp

/-- Adding an amount to an account, as journal/journal.go:95-102 does. -/
def addInto (amt a : Amount) : Amount := ⟨if a.commodity = [] then amt.commodity else a.commodity, a.quantity + amt.quantity⟩

theorem wireUp_spec (hf : h.Full) (t : Transaction) (p : Posting) {amt : Amount} (ha : p.amount = some amt) :
    ∃ h', wireUpPosting h 0 t p = some h' ∧ Posted h p.components (addInto amt) [p] h' := by
  obtain ⟨x, h1, e1, w1, pst⟩ := posted hf p.components_ne
    (fun a => { a with postings := a.postings ++ [p], transactions := a.transactions ++ [t] }) (addInto amt) [p]
    (fun n => ⟨rfl, rfl, rfl, rfl, rfl⟩) (fun n => rfl) (fun n => rfl)
  refine ⟨_, ?_, pst⟩
  unfold wireUpPosting
  rw [show split ':' p.accountPath = p.components from rfl, e1]
  simp only [ha]
  congr 1
  rw [show (fun a : Amount => (if a.commodity = [] then { a with commodity := amt.commodity } else a : Amount).add amt) = addInto amt from by
    funext a
    unfold addInto Amount.add
    by_cases hc : a.commodity = [] <;> simp [hc]]
  congr 1
  unfold Heap.modify Heap.set
  simp only [Heap.mk.injEq, true_and, and_true]
  funext y
  by_cases hy : y = x <;> simp [hy]

theorem wireUp_panics (h : Heap) (hf : h.Full) (t : Transaction) (p : Posting) (ha : p.amount = none) : wireUpPosting h 0 t p = none := by
  obtain ⟨x, h1, e1, _⟩ := findOrCreate_spec hf (show h.at [] = some 0 from rfl) p.components_ne
  unfold wireUpPosting
  rw [show split ':' p.accountPath = p.components from rfl, e1]
  simp only [ha]

theorem tally_snoc (ps : List Posting) (p : Posting) {amt : Amount} (ha : p.amount = some amt) :
    tally (ps ++ [p]) = addInto amt (tally ps) := by
  unfold tally addInto firstCommodity writtenCommodities
  have hv : p.value = amt.quantity := by unfold Posting.value; rw [ha]
  simp only [List.filterMap_append, List.filter_append, List.map_append, List.sum_append, List.map_cons, List.map_nil, List.sum_singleton, hv,
    Amount.mk.injEq, and_true]
  generalize hw : (List.filterMap (fun p => Option.map Amount.commodity p.amount) ps).filter (· ≠ []) = ws
  have hne : ∀ w ∈ ws, w ≠ [] := by
    intro w hm
    rw [← hw, List.mem_filter] at hm
    simpa using hm.2
  cases ws with
  | cons w ws =>
    have := hne w (by simp)
    simp [this]
  | nil =>
    by_cases hc : amt.commodity = [] <;> simp [ha, hc]

theorem newAccount_books (name : Str) : (newAccount name).Books [] := by
  refine ⟨newAccount_full name, fun cs => ?_, fun cs => ?_, fun cs => ?_⟩
  · cases cs with
    | nil => simp [Heap.has_nil]
    | cons c cs => simp [Heap.Has, Heap.at, Heap.walk, Heap.child, newAccount, lookupKey]
  · cases cs with
    | nil => rfl
    | cons c cs => rfl
  · cases cs with
    | nil => rfl
    | cons c cs => rfl

theorem Heap.Books.wireUp {ps : List Posting} (b : h.Books ps) (t : Transaction) (p : Posting) {amt : Amount} (ha : p.amount = some amt) :
    ∃ h', wireUpPosting h 0 t p = some h' ∧ h'.Books (ps ++ [p]) := by
  obtain ⟨h', e, w⟩ := wireUp_spec b.full t p ha
  refine ⟨h', e, w.full, fun cs => ?_, fun cs => ?_, fun cs => ?_⟩
  · rw [w.has, b.has]
    simp [or_assoc, or_and_right, exists_or]
  · rw [w.amt, b.amt]
    unfold below
    rw [List.filter_append]
    by_cases hc : cs <+: p.components
    · rw [if_pos hc, ← tally_snoc _ p ha]; simp [hc]
    · rw [if_neg hc]; simp [hc]
  · rw [w.own, b.own]
    unfold exactly
    rw [List.filter_append]
    by_cases hc : cs = p.components
    · subst hc; simp
    · rw [if_neg hc]; simp [Ne.symm hc]

/-- The heap of a journal after adding postings one after the other. -/
theorem addPostings_books (t : Transaction) (qs : List Posting) : ∀ (j : Journal) (ps : List Posting), j.heap.Books ps →
    (∀ p ∈ qs, p.amount ≠ none) → ∃ j', addPostings t qs j = some j' ∧ j'.heap.Books (ps ++ qs) ∧
      j'.transactions = j.transactions ∧ j'.periodicTransactions = j.periodicTransactions ∧ j'.filePaths = j.filePaths := by
  induction qs with
  | nil => intro j ps b _; exact ⟨j, rfl, by simpa using b, rfl, rfl, rfl⟩
  | cons q qs ih =>
    intro j ps b hq
    obtain ⟨amt, ha⟩ := Option.ne_none_iff_exists'.1 (hq q (by simp))
    obtain ⟨h', e, b'⟩ := b.wireUp t q ha
    obtain ⟨j', e2, b2, r⟩ := ih { j with heap := h' } (ps ++ [q]) b' (fun p hp => hq p (by simp [hp]))
    refine ⟨j', ?_, by simpa using b2, r⟩
    rw [addPostings, Journal.addPosting, e]
    exact e2

theorem addPostings_panics (t : Transaction) (qs : List Posting) : ∀ (j : Journal) (ps : List Posting), j.heap.Books ps →
    (∃ p ∈ qs, p.amount = none) → addPostings t qs j = none := by
  induction qs with
  | nil => rintro j ps b ⟨p, hp, _⟩; cases hp
  | cons q qs ih =>
    rintro j ps b ⟨p, hp, hn⟩
    rw [addPostings, Journal.addPosting]
    cases ha : q.amount with
    | none => rw [wireUp_panics _ b.full t q ha]; rfl
    | some amt =>
      obtain ⟨h', e, b'⟩ := b.wireUp t q ha
      rw [e]
      refine ih { j with heap := h' } (ps ++ [q]) b' ⟨p, ?_, hn⟩
      rcases List.mem_cons.1 hp with rfl | hp
      · rw [ha] at hn; cases hn
      · exact hp

end Gledger
