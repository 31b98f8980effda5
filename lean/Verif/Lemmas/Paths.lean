import Verif.Lemmas.Books
import Mathlib.Data.List.DropRight

/-! What holds of every account tree that is only ever grown: paths and path components. -/

namespace Gledger

variable {h h' : Heap}

/-- To show something of every grown tree it is enough to look at one new child. -/
theorem newAccountWithChildren_induct {P : Heap → Prop}
    (step : ∀ (h : Heap) (p : Ref) (bs : List Str) (c : Str), h.Full → h.at bs = some p → h.child p c = none → P h → P (h.newChild p c).2)
    (cs : List Str) : ∀ (h : Heap) (p : Ref) (bs : List Str), h.Full → h.at bs = some p →
    (∀ c, cs.head? = some c → h.child p c = none) → P h → P (h.newAccountWithChildren p cs).2 := by
  induction cs with
  | nil => intro h p bs _ _ _ hP; exact hP
  | cons c cs ih =>
    intro h p bs hf hb hc hP
    have hc' := hc c rfl
    have hp : p < h.next := hf.toTree.at_next hb
    have hP1 := step h p bs c hf hb hc' hP
    obtain ⟨e1, n, _⟩ := newChild_spec h p c hp
    rw [Heap.newAccountWithChildren]
    generalize h.newChild p c = x at e1 n hP1
    obtain ⟨r1, h1⟩ := x
    simp only at e1 n hP1
    subst e1
    have hf1 := n.full hf hp hc'
    have hb1 : h1.at (bs ++ [c]) = some h.next := by
      simp only [Heap.at]
      rw [Heap.walk_snoc, (n.grows hf hp hc').walk hb, Option.bind_some, n.child hp hc', if_pos ⟨rfl, rfl⟩]
    exact ih h1 h.next (bs ++ [c]) hf1 hb1 (by
      intro d _
      rw [n.child hp hc', if_neg (by omega), if_pos rfl]) hP1

theorem findOrCreate_induct {P : Heap → Prop}
    (step : ∀ (h : Heap) (p : Ref) (bs : List Str) (c : Str), h.Full → h.at bs = some p → h.child p c = none → P h → P (h.newChild p c).2)
    (hf : h.Full) {r : Ref} {bs cs : List Str} (hb : h.at bs = some r) {x : Ref} (hx : h.findOrCreate r cs = some (x, h')) (hP : P h) : P h' := by
  by_cases hcs : cs = []
  · subst hcs; simp [Heap.findOrCreate, Heap.findChild] at hx
  · obtain ⟨k, rest, done, e1, e2, e3, e4⟩ := findChild_spec h cs r hcs
    have hk : h.at (bs ++ done) = some k := by
      simp only [Heap.at] at *
      rw [Heap.walk_append, hb]
      exact e3
    unfold Heap.findOrCreate at hx
    rw [e1] at hx
    cases rest with
    | nil => cases hx; exact hP
    | cons c rest =>
      simp only [Option.some.injEq] at hx
      have := newAccountWithChildren_induct step (c :: rest) h k _ hf hk e4 hP
      rw [hx] at this
      exact this

theorem Heap.Made.full {name : Str} (m : h.Made name) : h.Full := by
  induction m with
  | new => exact newAccount_full name
  | @find h h' bs cs r x _ hb hx ih =>
    by_cases hcs : cs = []
    · subst hcs; simp [Heap.findOrCreate, Heap.findChild] at hx
    · obtain ⟨_, _, e1, f1, _⟩ := findOrCreate_spec ih hb hcs
      rw [e1] at hx
      cases hx
      exact f1
  | data _ s ih => exact s.full ih

theorem Heap.Made.induct {name : Str} {P : Heap → Prop} (new : P (newAccount name))
    (step : ∀ (h : Heap) (p : Ref) (bs : List Str) (c : Str), h.Full → h.at bs = some p → h.child p c = none → P h → P (h.newChild p c).2)
    (data : ∀ h h' : Heap, h.Full → h.Shape h' → P h → P h') (m : h.Made name) : P h := by
  induction m with
  | new => exact new
  | find m hb hx ih => exact findOrCreate_induct step m.full hb hx ih
  | data m s ih => exact data _ _ m.full s ih

theorem wireUp_made {name : Str} (m : h.Made name) {t : Transaction} {p : Posting} (hw : wireUpPosting h 0 t p = some h') : h'.Made name := by
  cases ha : p.amount with
  | none => rw [wireUp_panics h m.full t p ha] at hw; cases hw
  | some amt =>
    obtain ⟨x, h1, e1, w1, _⟩ := posted m.full p.components_ne
      (fun a => { a with postings := a.postings ++ [p], transactions := a.transactions ++ [t] }) (addInto amt) [p]
      (fun n => ⟨rfl, rfl, rfl, rfl, rfl⟩) (fun n => rfl) (fun n => rfl)
    have m1 : h1.Made name := m.find (bs := []) rfl e1
    unfold wireUpPosting at hw
    rw [show split ':' p.accountPath = p.components from rfl, e1] at hw
    simp only [ha, Option.some.injEq] at hw
    have s1 := Heap.Shape.modify h1 x (fun a => { a with postings := a.postings ++ [p] }) (fun n => ⟨rfl, rfl, rfl, rfl, rfl⟩)
    have s2 := Heap.Shape.modify (h1.modify x fun a => { a with postings := a.postings ++ [p] }) x
      (fun a => { a with transactions := a.transactions ++ [t] }) (fun n => ⟨rfl, rfl, rfl, rfl, rfl⟩)
    have s := s1.trans s2
    have s3 := (walkAncestors_spec (s.tree m1.full.toTree) (by rw [s.at]; exact w1) (fun a =>
      (if a.commodity = [] then { a with commodity := amt.commodity } else a : Amount).add amt)).1
    rw [← hw]
    exact m1.data (s.trans s3)

/-! ### Paths -/

/-- The names of the accounts passed on the way up, from the topmost: those after the last reserved name. -/
def passed (names : List Str) : List Str := names.rtakeWhile fun n => !isRootName n

theorem joinPath_snoc2 (l : List Str) (c s : Str) : joinPath (l ++ [c, s]) = joinPath (l ++ [c ++ ':' :: s]) := by
  induction l with
  | nil => simp [joinPath]
  | cons a l ih =>
    cases l with
    | nil => simp [joinPath]
    | cons b l =>
      simp only [List.cons_append] at ih ⊢
      rw [joinPath.eq_3 a _ (by simp), joinPath.eq_3 a _ (by simp), ih]

theorem Heap.Tree.length_le (ht : h.Tree) {r x : Ref} {cs : List Str} (hw : h.walk r cs = some x) : r + cs.length ≤ x := by
  induction cs generalizing r with
  | nil => cases hw; simp
  | cons c cs ih =>
    rw [Heap.walk_cons, Option.bind_eq_some_iff] at hw
    obtain ⟨k, h1, h2⟩ := hw
    have := ih h2
    have := (ht.child_lt h1).1
    simp only [List.length_cons]
    omega

theorem createPathLoop_spec (ht : h.Tree) : ∀ (n : Nat) (cs : List Str) (x : Ref) (s : Str), h.at cs = some x → cs.length < n →
    h.createPathLoop n x s = joinPath (passed (((h.node 0).name :: cs).dropLast) ++ [s]) := by
  intro n
  induction n with
  | zero => intro cs x s _ hn; omega
  | succ n ih =>
    intro cs x s hx hn
    rw [Heap.createPathLoop]
    rcases List.eq_nil_or_concat' cs with rfl | ⟨bs, c, rfl⟩
    · cases hx
      rw [ht.root.2]
      simp [passed, joinPath]
    · simp only [Heap.at] at hx
      rw [Heap.walk_snoc, Option.bind_eq_some_iff] at hx
      obtain ⟨p, h1, h2⟩ := hx
      obtain ⟨_, _, h3, _⟩ := ht.child_lt h2
      rw [h3]
      simp only
      have hdl : ((h.node 0).name :: (bs ++ [c])).dropLast = (h.node 0).name :: bs := by
        rw [← List.cons_append, List.dropLast_concat]
      -- the name of the parent is the last of these
      have hname : (h.node 0).name :: bs = ((h.node 0).name :: bs).dropLast ++ [(h.node p).name] := by
        rcases List.eq_nil_or_concat' bs with rfl | ⟨as, b, rfl⟩
        · cases h1; simp
        · have h1' := h1
          rw [Heap.walk_snoc, Option.bind_eq_some_iff] at h1'
          obtain ⟨q, _, h5⟩ := h1'
          rw [(ht.child_lt h5).2.2.2, ← List.cons_append, List.dropLast_concat]
      rw [hdl]
      by_cases hr : isRootName (h.node p).name = true
      · rw [if_pos hr, hname, passed, List.rtakeWhile_concat_neg _ _ _ (by simp [hr])]
        rfl
      · rw [if_neg hr, ih bs p _ h1 (by simp at hn; omega)]
        conv => rhs; rw [hname]
        rw [passed, passed, List.rtakeWhile_concat_pos _ _ _ (by simp [hr]), List.append_assoc]
        exact (joinPath_snoc2 _ _ _).symm

/-- Every account's path is spelled by its names. -/
def Heap.Spelled (h : Heap) : Prop := ∀ cs x, h.at cs = some x → cs ≠ [] →
  (h.node x).path = joinPath (passed (((h.node 0).name :: cs).dropLast) ++ [(h.node x).name])

theorem Heap.Made.spelled {name : Str} (m : h.Made name) : h.Spelled ∧ (h.node 0).name = name := by
  refine m.induct (P := fun h => h.Spelled ∧ (h.node 0).name = name) ⟨?_, rfl⟩ ?_ ?_
  · intro cs x hx hn
    cases cs with
    | nil => exact absurd rfl hn
    | cons c cs => simp [Heap.at, Heap.walk, Heap.child, newAccount, lookupKey] at hx
  · intro h p bs c hf hb hc ⟨hs, hn⟩
    have hp : p < h.next := hf.toTree.at_next hb
    obtain ⟨e1, n, e3⟩ := newChild_spec h p c hp
    generalize (h.newChild p c).2 = h1 at e3 n
    have hf1 := n.full hf hp hc
    have g := n.grows hf hp hc
    have hr0 := g.old 0 hf.root.1
    refine ⟨?_, by rw [hr0.1]; exact hn⟩
    intro cs x hx hcs
    rw [hr0.1]
    rcases n.walk hf hp hc cs 0 x hf.root.1 hx with ⟨h2, h3⟩ | ⟨rfl, es, rfl, h4⟩
    · rw [(g.old x h2).1, (g.old x h2).2.1]
      exact hs cs x h3 hcs
    · rw [e3, Heap.createPath, createPathLoop_spec hf1.toTree _ _ _ _ hx, hr0.1]
      have := hf1.toTree.length_le hx
      have := n.next
      omega
  · intro h h' hf s ⟨hs, hn⟩
    refine ⟨fun cs x hx hcs => ?_, by rw [(s.node 0).1]; exact hn⟩
    rw [(s.node x).2.1, (s.node 0).1, (s.node x).1]
    exact hs cs x (by rw [← s.at]; exact hx) hcs

/-! ### Components of paths -/

/-- What the array of `PathComponents` looks like after a new child. -/
theorem newChild_comps (h : Heap) (p : Ref) (c : Str) (hp : p < h.next) :
    (∀ r, r ≠ h.next → ((h.newChild p c).2.node r).comps = (h.node r).comps) ∧
    ((isRootName (h.node p).name = true → ((h.newChild p c).2.node h.next).comps = ⟨h.nextArr, 1, 1⟩ ∧ (h.newChild p c).2.nextArr = h.nextArr + 1 ∧
        (∀ a i, (h.newChild p c).2.arr a i = if a = h.nextArr ∧ i = 0 then c else h.arr a i)) ∧
      (isRootName (h.node p).name = false → (h.node p).comps.len < (h.node p).comps.cap →
        ((h.newChild p c).2.node h.next).comps = ⟨(h.node p).comps.arr, (h.node p).comps.len + 1, (h.node p).comps.cap⟩ ∧
        (h.newChild p c).2.nextArr = h.nextArr ∧
        (∀ a i, (h.newChild p c).2.arr a i = if a = (h.node p).comps.arr ∧ i = (h.node p).comps.len then c else h.arr a i)) ∧
      (isRootName (h.node p).name = false → ¬ (h.node p).comps.len < (h.node p).comps.cap →
        ((h.newChild p c).2.node h.next).comps = ⟨h.nextArr, (h.node p).comps.len + 1, growCap (h.node p).comps.cap⟩ ∧
        (h.newChild p c).2.nextArr = h.nextArr + 1 ∧
        (∀ a i, (h.newChild p c).2.arr a i =
          if a = h.nextArr then (if i = (h.node p).comps.len then c else h.arr (h.node p).comps.arr i) else h.arr a i))) := by
  have hne : p ≠ h.next := by omega
  unfold Heap.newChild
  by_cases ht : isRootName (h.node p).name = true
  · simp only [ht, if_true, Heap.literal, Heap.modify, Heap.set]
    refine ⟨fun r hr => ?_, ?_⟩
    · by_cases h1 : r = p
      · subst h1; simp [hne]
      · simp [h1, hr]
    · simp
  · by_cases hc : (h.node p).comps.len < (h.node p).comps.cap
    · simp only [ht, Heap.append, hc, if_true, Heap.modify, Heap.set]
      refine ⟨fun r hr => ?_, ?_⟩
      · by_cases h1 : r = p
        · subst h1; simp [hne]
        · simp [h1, hr]
      · simp
    · simp only [ht, Heap.append, hc, Heap.modify, Heap.set]
      refine ⟨fun r hr => ?_, ?_⟩
      · by_cases h1 : r = p
        · subst h1; simp [hne]
        · simp [h1, hr]
      · simp

theorem slice_eq {s : Slice} {cs : List Str} : h.slice s = cs ↔ s.len = cs.length ∧ ∀ i c, cs[i]? = some c → h.arr s.arr i = c := by
  unfold Heap.slice
  constructor
  · rintro rfl
    refine ⟨by simp, fun i c hc => ?_⟩
    simp only [List.getElem?_map] at hc
    by_cases hi : i < s.len
    · rw [List.getElem?_range hi] at hc; simpa using hc
    · rw [List.getElem?_eq_none (by simp; omega)] at hc; cases hc
  · rintro ⟨h1, h2⟩
    apply List.ext_getElem?
    intro i
    by_cases hi : i < s.len
    · rw [List.getElem?_map, List.getElem?_range hi, List.getElem?_eq_getElem (by omega)]
      simp only [Option.map_some, Option.some.injEq]
      exact h2 i _ (List.getElem?_eq_getElem (by omega))
    · rw [List.getElem?_eq_none (by simp; omega), List.getElem?_eq_none (by omega)]

structure Heap.Shallow (h : Heap) : Prop where
  base : ∀ cs x, h.at cs = some x → cs ≠ [] → (h.node x).comps.arr < h.nextArr ∧ (h.node x).comps.len = cs.length ∧
    ((h.node x).comps.len ≤ 2 → (h.node x).comps.cap = (h.node x).comps.len)
  low : ∀ cs x, h.at cs = some x → cs ≠ [] → cs.length ≤ 3 → ∀ i c, cs[i]? = some c → h.arr (h.node x).comps.arr i = c

structure Heap.Owned (h : Heap) : Prop where
  ok : ∀ cs x, h.at cs = some x → cs ≠ [] → ∀ i c, cs[i]? = some c → h.arr (h.node x).comps.arr i = c
  longer : ∀ cs x ds y, h.at cs = some x → cs ≠ [] → h.at ds = some y → ds ≠ [] → (h.node x).comps.arr = (h.node y).comps.arr →
    cs.length < ds.length → (h.node x).children ≠ []
  same : ∀ cs x ds y, h.at cs = some x → cs ≠ [] → h.at ds = some y → ds ≠ [] → (h.node x).comps.arr = (h.node y).comps.arr →
    cs.length = ds.length → x = y

theorem getElem?_snoc_cases {α : Type} {l : List α} {a c : α} {i : Nat} (hi : (l ++ [a])[i]? = some c) :
    (l[i]? = some c ∧ i < l.length) ∨ (i = l.length ∧ c = a) := by
  by_cases h1 : i < l.length
  · rw [List.getElem?_append_left h1] at hi; exact Or.inl ⟨hi, h1⟩
  · rw [List.getElem?_append_right (by omega)] at hi
    right
    cases hk : i - l.length with
    | zero => rw [hk] at hi; simp at hi; exact ⟨by omega, hi.symm⟩
    | succ k => rw [hk] at hi; simp at hi

theorem isRootName_iff {name : Str} : isRootName name = true ↔ Reserved name := by
  simp only [isRootName, Reserved, Bool.or_eq_true, decide_eq_true_eq]
  exact Iff.rfl

theorem isRootName_not {name : Str} : isRootName name = false ↔ ¬ Reserved name := by
  rw [← isRootName_iff, Bool.not_eq_true]

theorem Heap.Clean.name {cs : List Str} {x : Ref} (hc : h.Clean) (ht : h.Tree) (hx : h.at cs = some x) :
    isRootName (h.node x).name = true ↔ cs = [] := by
  rcases List.eq_nil_or_concat' cs with rfl | ⟨bs, c, rfl⟩
  · cases hx; simp [isRootName_iff, hc.1]
  · have hx' := hx
    simp only [Heap.at] at hx
    rw [Heap.walk_snoc, Option.bind_eq_some_iff] at hx
    obtain ⟨p, _, h2⟩ := hx
    rw [(ht.child_lt h2).2.2.2]
    have := hc.2 _ (has_iff.2 ⟨x, hx'⟩) c (by simp)
    simp [isRootName_iff, this]

theorem shallow_step (h : Heap) (p : Ref) (bs : List Str) (c : Str) (hf : h.Full) (hb : h.at bs = some p) (hc : h.child p c = none)
    (ih : h.Clean → h.Shallow) (hcl : (h.newChild p c).2.Clean) : (h.newChild p c).2.Shallow := by
  have hp : p < h.next := hf.toTree.at_next hb
  obtain ⟨_, n, _⟩ := newChild_spec h p c hp
  obtain ⟨k1, k2, k3, k4⟩ := newChild_comps h p c hp
  generalize (h.newChild p c).2 = h1 at n k1 k2 k3 k4 hcl
  have hf1 := n.full hf hp hc
  have g := n.grows hf hp hc
  have hcl0 : h.Clean := ⟨by rw [← (g.old 0 hf.root.1).1]; exact hcl.1, fun cs hcs => hcl.2 cs (g.has hcs)⟩
  have sh := ih hcl0
  have hwalk := n.walk hf hp hc
  have hold : ∀ x, x < h.next → (h1.node x).comps = (h.node x).comps := fun x hx => k1 x (by omega)
  by_cases hr : isRootName (h.node p).name = true
  · have hb0 : bs = [] := (hcl0.name hf.toTree hb).1 hr
    subst hb0
    obtain ⟨c1, c2, c3⟩ := k2 hr
    refine ⟨fun cs x hx hn => ?_, fun cs x hx hn hl i d hi => ?_⟩
    · rcases hwalk cs 0 x hf.root.1 hx with ⟨h2, h3⟩ | ⟨rfl, es, rfl, h4⟩
      · obtain ⟨b1, b2, b3⟩ := sh.base cs x h3 hn
        rw [hold x h2]
        exact ⟨by omega, b2, b3⟩
      · have : es = [] := hf.toTree.walk_inj h4 hb
        subst this
        rw [c1]
        exact ⟨by simp [c2], by simp, by simp⟩
    · rcases hwalk cs 0 x hf.root.1 hx with ⟨h2, h3⟩ | ⟨rfl, es, rfl, h4⟩
      · obtain ⟨b1, _, _⟩ := sh.base cs x h3 hn
        rw [hold x h2, c3, if_neg (by omega)]
        exact sh.low cs x h3 hn hl i d hi
      · have : es = [] := hf.toTree.walk_inj h4 hb
        subst this
        rw [c1, c3]
        rcases getElem?_snoc_cases hi with ⟨h5, h6⟩ | ⟨rfl, rfl⟩
        · simp at h5
        · simp
  · have hb0 : bs ≠ [] := fun he => hr ((hcl0.name hf.toTree hb).2 he)
    obtain ⟨p1, p2, p3⟩ := sh.base bs p hb hb0
    rw [Bool.not_eq_true] at hr
    by_cases hcap : (h.node p).comps.len < (h.node p).comps.cap
    · obtain ⟨c1, c2, c3⟩ := k3 hr hcap
      have h3 : 3 ≤ bs.length := by
        by_contra hlt
        have := p3 (by omega)
        omega
      refine ⟨fun cs x hx hn => ?_, fun cs x hx hn hl i d hi => ?_⟩
      · rcases hwalk cs 0 x hf.root.1 hx with ⟨h2, h4⟩ | ⟨rfl, es, rfl, h4⟩
        · rw [hold x h2, c2]
          exact sh.base cs x h4 hn
        · rw [c1, c2, hf.toTree.walk_inj h4 hb]
          exact ⟨p1, by simp [p2], by intro h5; simp only at h5; omega⟩
      · rcases hwalk cs 0 x hf.root.1 hx with ⟨h2, h4⟩ | ⟨rfl, es, rfl, h4⟩
        · rw [hold x h2, c3, if_neg]
          · exact sh.low cs x h4 hn hl i d hi
          · rintro ⟨_, rfl⟩
            rw [List.getElem?_eq_none (by omega)] at hi
            cases hi
        · rw [hf.toTree.walk_inj h4 hb] at hl
          simp at hl
          omega
    · obtain ⟨c1, c2, c3⟩ := k4 hr hcap
      refine ⟨fun cs x hx hn => ?_, fun cs x hx hn hl i d hi => ?_⟩
      · rcases hwalk cs 0 x hf.root.1 hx with ⟨h2, h4⟩ | ⟨rfl, es, rfl, h4⟩
        · obtain ⟨b1, b2, b3⟩ := sh.base cs x h4 hn
          rw [hold x h2, c2]
          exact ⟨by omega, b2, b3⟩
        · have := hf.toTree.walk_inj h4 hb
          subst this
          rw [c1, c2]
          refine ⟨by simp, by simp [p2], fun h5 => ?_⟩
          simp only at h5 ⊢
          have h6 := p3 (by omega)
          have h7 : 0 < es.length := List.length_pos_iff.2 hb0
          have h8 : (h.node p).comps.len = 1 := by omega
          rw [h6, h8]
          rfl
      · rcases hwalk cs 0 x hf.root.1 hx with ⟨h2, h4⟩ | ⟨rfl, es, rfl, h4⟩
        · obtain ⟨b1, _, _⟩ := sh.base cs x h4 hn
          rw [hold x h2, c3, if_neg (by omega)]
          exact sh.low cs x h4 hn hl i d hi
        · have := hf.toTree.walk_inj h4 hb
          subst this
          rw [c1, c3, if_pos rfl]
          rcases getElem?_snoc_cases hi with ⟨h5, h6⟩ | ⟨rfl, rfl⟩
          · rw [if_neg (by omega)]
            exact sh.low es p hb hb0 (by simp at hl; omega) i d h5
          · rw [if_pos p2.symm]

theorem shallow_shape (h h' : Heap) (s : h.Shape h') (ih : h.Clean → h.Shallow) (hcl : h'.Clean) : h'.Shallow := by
  have hcl0 : h.Clean := ⟨by rw [← (s.node 0).1]; exact hcl.1, fun cs hcs => hcl.2 cs ((s.has cs).2 hcs)⟩
  have sh := ih hcl0
  refine ⟨fun cs x hx hn => ?_, fun cs x hx hn => ?_⟩
  · rw [s.at] at hx
    rw [(s.node x).2.2.1, s.arrs.1]
    exact sh.base cs x hx hn
  · rw [s.at] at hx
    rw [(s.node x).2.2.1, s.arrs.2]
    exact sh.low cs x hx hn

theorem Heap.Made.shallow {name : Str} (m : h.Made name) : h.Clean → h.Shallow := by
  refine m.induct (P := fun h => h.Clean → h.Shallow) ?_ ?_ ?_
  · intro _
    have : ∀ cs x, (newAccount name).at cs = some x → cs ≠ [] → False := by
      intro cs x hx hn
      cases cs with
      | nil => exact absurd rfl hn
      | cons c cs => simp [Heap.at, Heap.walk, Heap.child, newAccount, lookupKey] at hx
    exact ⟨fun cs x hx hn => (this cs x hx hn).elim, fun cs x hx hn => (this cs x hx hn).elim⟩
  · exact shallow_step
  · exact fun h h' _ => shallow_shape h h'

theorem Heap.Made.owned {name : Str} (m : h.Made name) : h.Clean → h.Narrow → h.Shallow ∧ h.Owned := by
  refine m.induct (P := fun h => h.Clean → h.Narrow → h.Shallow ∧ h.Owned) ?_ ?_ ?_ |> fun f hc hn => ⟨m.shallow hc, (f hc hn).2⟩
  · intro hcl _
    have : ∀ cs x, (newAccount name).at cs = some x → cs ≠ [] → False := by
      intro cs x hx hn
      cases cs with
      | nil => exact absurd rfl hn
      | cons c cs => simp [Heap.at, Heap.walk, Heap.child, newAccount, lookupKey] at hx
    exact ⟨Heap.Made.new.shallow hcl, fun cs x hx hn => (this cs x hx hn).elim, fun cs x _ _ hx hn => (this cs x hx hn).elim,
      fun cs x _ _ hx hn => (this cs x hx hn).elim⟩
  · intro h p bs c hf hb hc ih hcl hnar
    have hsh0 := shallow_step h p bs c hf hb hc
    have hp : p < h.next := hf.toTree.at_next hb
    obtain ⟨_, n, _⟩ := newChild_spec h p c hp
    obtain ⟨k1, k2, k3, k4⟩ := newChild_comps h p c hp
    generalize (h.newChild p c).2 = h1 at n k1 k2 k3 k4 hcl hnar hsh0
    have hf1 := n.full hf hp hc
    have g := n.grows hf hp hc
    have hcl0 : h.Clean := ⟨by rw [← (g.old 0 hf.root.1).1]; exact hcl.1, fun cs hcs => hcl.2 cs (g.has hcs)⟩
    have hkids : (h1.node p).children = (h.node p).children ++ [(c, h.next)] := by
      rw [n.parent]; exact assignKey_new hc
    have hkids' : ∀ x, x ≠ p → x < h.next → (h1.node x).children = (h.node x).children := fun x h2 h3 => by rw [n.other x h2 (by omega)]
    have hsub : ∀ x, x < h.next → (h.node x).children ≠ [] → (h1.node x).children ≠ [] := by
      intro x hx hne
      by_cases hxp : x = p
      · subst hxp; rw [hkids]; simp
      · rw [hkids' x hxp hx]; exact hne
    have hnar0 : h.Narrow := by
      intro cs x hx hl
      have h2 := hnar cs x (g.walk hx) hl
      by_cases hxp : x = p
      · subst hxp
        rw [hkids] at h2
        simp at h2
        simp [h2]
      · rw [hkids' x hxp (hf.toTree.at_next hx)] at h2
        exact h2
    obtain ⟨sh, ow⟩ := ih hcl0 hnar0
    have hsh1 := hsh0 (fun _ => sh) hcl
    have hwalk := n.walk hf hp hc
    have hold : ∀ x, x < h.next → (h1.node x).comps = (h.node x).comps := fun x hx => k1 x (by omega)
    refine ⟨hsh1, ?_⟩
    by_cases hr : isRootName (h.node p).name = true
    · have hb0 : bs = [] := (hcl0.name hf.toTree hb).1 hr
      subst hb0
      obtain ⟨c1, c2, c3⟩ := k2 hr
      refine ⟨fun cs x hx hn i d hi => ?_, fun cs x ds y hx hn hy hm he hl => ?_, fun cs x ds y hx hn hy hm he hl => ?_⟩
      · rcases hwalk cs 0 x hf.root.1 hx with ⟨h2, h3⟩ | ⟨rfl, es, rfl, h4⟩
        · obtain ⟨b1, _, _⟩ := sh.base cs x h3 hn
          rw [hold x h2, c3, if_neg (by omega)]
          exact ow.ok cs x h3 hn i d hi
        · have : es = [] := hf.toTree.walk_inj h4 hb
          subst this
          rw [c1, c3]
          rcases getElem?_snoc_cases hi with ⟨h5, h6⟩ | ⟨rfl, rfl⟩
          · simp at h5
          · simp
      · rcases hwalk cs 0 x hf.root.1 hx with ⟨h2, h3⟩ | ⟨rfl, es, rfl, h4⟩ <;> rcases hwalk ds 0 y hf.root.1 hy with ⟨h5, h6⟩ | ⟨rfl, fs, rfl, h7⟩
        · rw [hold x h2, hold y h5] at he
          exact hsub x h2 (ow.longer cs x ds y h3 hn h6 hm he hl)
        · have := (sh.base cs x h3 hn).1
          rw [hold x h2, c1] at he
          simp only at he
          omega
        · have := (sh.base ds y h6 hm).1
          rw [hold y h5, c1] at he
          simp only at he
          omega
        · rw [hf.toTree.walk_inj h4 h7] at hl
          omega
      · rcases hwalk cs 0 x hf.root.1 hx with ⟨h2, h3⟩ | ⟨rfl, es, rfl, h4⟩ <;> rcases hwalk ds 0 y hf.root.1 hy with ⟨h5, h6⟩ | ⟨rfl, fs, rfl, h7⟩
        · rw [hold x h2, hold y h5] at he
          exact ow.same cs x ds y h3 hn h6 hm he hl
        · have := (sh.base cs x h3 hn).1
          rw [hold x h2, c1] at he
          simp only at he
          omega
        · have := (sh.base ds y h6 hm).1
          rw [hold y h5, c1] at he
          simp only at he
          omega
        · rfl
    · have hb0 : bs ≠ [] := fun he => hr ((hcl0.name hf.toTree hb).2 he)
      obtain ⟨p1, p2, p3⟩ := sh.base bs p hb hb0
      rw [Bool.not_eq_true] at hr
      by_cases hcap : (h.node p).comps.len < (h.node p).comps.cap
      · obtain ⟨c1, c2, c3⟩ := k3 hr hcap
        have h3 : 3 ≤ bs.length := by
          by_contra hlt
          have := p3 (by omega)
          omega
        have hempty : (h.node p).children = [] := by
          have h4 := hnar bs p (g.walk hb) h3
          rw [hkids] at h4
          simpa using h4
        have hnone : ∀ ds y, h.at ds = some y → ds ≠ [] → (h.node y).comps.arr = (h.node p).comps.arr → ds.length ≤ bs.length := by
          intro ds y hy hm he
          by_contra hlt
          exact ow.longer bs p ds y hb hb0 hy hm he.symm (by omega) hempty
        refine ⟨fun cs x hx hn i d hi => ?_, fun cs x ds y hx hn hy hm he hl => ?_, fun cs x ds y hx hn hy hm he hl => ?_⟩
        · rcases hwalk cs 0 x hf.root.1 hx with ⟨h2, h4⟩ | ⟨rfl, es, rfl, h4⟩
          · rw [hold x h2, c3, if_neg]
            · exact ow.ok cs x h4 hn i d hi
            · rintro ⟨h5, rfl⟩
              have := hnone cs x h4 hn h5
              rw [List.getElem?_eq_none (by omega)] at hi
              cases hi
          · have := hf.toTree.walk_inj h4 hb
            subst this
            rw [c1, c3]
            rcases getElem?_snoc_cases hi with ⟨h5, h6⟩ | ⟨rfl, rfl⟩
            · rw [if_neg (by simp only; omega)]
              exact ow.ok es p hb hb0 i d h5
            · rw [if_pos ⟨rfl, p2.symm⟩]
        · rcases hwalk cs 0 x hf.root.1 hx with ⟨h2, h4⟩ | ⟨rfl, es, rfl, h4⟩ <;> rcases hwalk ds 0 y hf.root.1 hy with ⟨h5, h6⟩ | ⟨rfl, fs, rfl, h7⟩
          · rw [hold x h2, hold y h5] at he
            exact hsub x h2 (ow.longer cs x ds y h4 hn h6 hm he hl)
          · rw [hold x h2, c1] at he
            simp only at he
            rw [hf.toTree.walk_inj h7 hb, List.length_append, List.length_singleton] at hl
            by_cases hlt : cs.length = bs.length
            · have := ow.same cs x bs p h4 hn hb hb0 he hlt
              subst this
              rw [hkids]
              simp
            · exact hsub x h2 (ow.longer cs x bs p h4 hn hb hb0 he (by omega))
          · rw [hold y h5, c1] at he
            have := hnone ds y h6 hm he.symm
            rw [hf.toTree.walk_inj h4 hb, List.length_append, List.length_singleton] at hl
            omega
          · rw [hf.toTree.walk_inj h4 h7] at hl
            omega
        · rcases hwalk cs 0 x hf.root.1 hx with ⟨h2, h4⟩ | ⟨rfl, es, rfl, h4⟩ <;> rcases hwalk ds 0 y hf.root.1 hy with ⟨h5, h6⟩ | ⟨rfl, fs, rfl, h7⟩
          · rw [hold x h2, hold y h5] at he
            exact ow.same cs x ds y h4 hn h6 hm he hl
          · rw [hold x h2, c1] at he
            have := hnone cs x h4 hn he
            rw [hf.toTree.walk_inj h7 hb, List.length_append, List.length_singleton] at hl
            omega
          · rw [hold y h5, c1] at he
            have := hnone ds y h6 hm he.symm
            rw [hf.toTree.walk_inj h4 hb, List.length_append, List.length_singleton] at hl
            omega
          · rfl
      · obtain ⟨c1, c2, c3⟩ := k4 hr hcap
        refine ⟨fun cs x hx hn i d hi => ?_, fun cs x ds y hx hn hy hm he hl => ?_, fun cs x ds y hx hn hy hm he hl => ?_⟩
        · rcases hwalk cs 0 x hf.root.1 hx with ⟨h2, h4⟩ | ⟨rfl, es, rfl, h4⟩
          · have := (sh.base cs x h4 hn).1
            rw [hold x h2, c3, if_neg (by omega)]
            exact ow.ok cs x h4 hn i d hi
          · have := hf.toTree.walk_inj h4 hb
            subst this
            rw [c1, c3, if_pos rfl]
            rcases getElem?_snoc_cases hi with ⟨h5, h6⟩ | ⟨rfl, rfl⟩
            · rw [if_neg (by omega)]
              exact ow.ok es p hb hb0 i d h5
            · rw [if_pos p2.symm]
        · rcases hwalk cs 0 x hf.root.1 hx with ⟨h2, h4⟩ | ⟨rfl, es, rfl, h4⟩ <;> rcases hwalk ds 0 y hf.root.1 hy with ⟨h5, h6⟩ | ⟨rfl, fs, rfl, h7⟩
          · rw [hold x h2, hold y h5] at he
            exact hsub x h2 (ow.longer cs x ds y h4 hn h6 hm he hl)
          · have := (sh.base cs x h4 hn).1
            rw [hold x h2, c1] at he
            simp only at he
            omega
          · have := (sh.base ds y h6 hm).1
            rw [hold y h5, c1] at he
            simp only at he
            omega
          · rw [hf.toTree.walk_inj h4 h7] at hl
            omega
        · rcases hwalk cs 0 x hf.root.1 hx with ⟨h2, h4⟩ | ⟨rfl, es, rfl, h4⟩ <;> rcases hwalk ds 0 y hf.root.1 hy with ⟨h5, h6⟩ | ⟨rfl, fs, rfl, h7⟩
          · rw [hold x h2, hold y h5] at he
            exact ow.same cs x ds y h4 hn h6 hm he hl
          · have := (sh.base cs x h4 hn).1
            rw [hold x h2, c1] at he
            simp only at he
            omega
          · have := (sh.base ds y h6 hm).1
            rw [hold y h5, c1] at he
            simp only at he
            omega
          · rfl
  · intro h h' hf s ih hcl hnar
    have hcl0 : h.Clean := ⟨by rw [← (s.node 0).1]; exact hcl.1, fun cs hcs => hcl.2 cs ((s.has cs).2 hcs)⟩
    have hnar0 : h.Narrow := fun cs x hx hl => by
      have := hnar cs x (by rw [s.at]; exact hx) hl
      rw [(s.node x).2.2.2.2] at this
      exact this
    obtain ⟨sh, ow⟩ := ih hcl0 hnar0
    refine ⟨shallow_shape h h' s (fun _ => sh) hcl, ?_, ?_, ?_⟩
    · intro cs x hx hn
      rw [s.at] at hx
      rw [(s.node x).2.2.1, s.arrs.2]
      exact ow.ok cs x hx hn
    · intro cs x ds y hx hn hy hm
      rw [s.at] at hx hy
      rw [(s.node x).2.2.1, (s.node y).2.2.1, (s.node x).2.2.2.2]
      exact ow.longer cs x ds y hx hn hy hm
    · intro cs x ds y hx hn hy hm
      rw [s.at] at hx hy
      rw [(s.node x).2.2.1, (s.node y).2.2.1]
      exact ow.same cs x ds y hx hn hy hm

end Gledger
