import Verif.Lemmas.Books
import Verif.Lemmas.Replay
import Verif.Lemmas.AddAll
import Verif.Spec.Balance
import Verif.Props.Filters

set_option maxRecDepth 100000

namespace Gledger

/-! ### C27 An account's balance is the sum of the postings below it -/

theorem addEach_books (es : List (Transaction × Posting)) : ∀ (j : Journal) (ps : List Posting), j.heap.Books ps →
    (∀ e ∈ es, e.2.amount ≠ none) → ∃ j', Journal.addEach es j = some j' ∧ j'.heap.Books (ps ++ es.map Prod.snd) := by
  induction es with
  | nil => intro j ps b _; exact ⟨j, rfl, by simpa using b⟩
  | cons q qs ih =>
    intro j ps b hq
    obtain ⟨amt, ha⟩ := Option.ne_none_iff_exists'.1 (hq q (by simp))
    obtain ⟨h', e, b'⟩ := b.wireUp q.1 q.2 ha
    obtain ⟨j', e2, b2⟩ := ih { j with heap := h' } (ps ++ [q.2]) b' (fun p hp => hq p (by simp [hp]))
    refine ⟨j', ?_, by simpa using b2⟩
    rw [Journal.addEach, Journal.addPosting, e]
    exact e2

/-- Postings with amounts, added one after the other to a new journal: the accounts are the root and the prefixes of the
postings' paths; the quantity of each is the sum over exactly the postings below it, its commodity the first written there, and
its own postings are those with exactly its path, in order. -/
theorem C27_balance_is_sum (es : List (Transaction × Posting)) (ha : ∀ e ∈ es, e.2.amount ≠ none) :
    ∃ j, Journal.addEach es newJournal = some j ∧
      ∀ cs, (j.heap.Has cs ↔ cs = [] ∨ ∃ e ∈ es, cs <+: e.2.components) ∧
        (j.heap.amt cs).quantity = valueOf (below cs (es.map Prod.snd)) ∧
        (j.heap.amt cs).commodity = firstCommodity (below cs (es.map Prod.snd)) ∧
        j.heap.own cs = exactly cs (es.map Prod.snd) := by
  obtain ⟨j, h1, h2⟩ := addEach_books es newJournal [] (newAccount_books _) ha
  rw [List.nil_append] at h2
  refine ⟨j, h1, fun cs => ⟨?_, ?_, ?_, h2.own cs⟩⟩
  · rw [h2.has]
    constructor
    · rintro (h | ⟨p, hp, h⟩)
      · exact Or.inl h
      · obtain ⟨e, he, rfl⟩ := List.mem_map.1 hp
        exact Or.inr ⟨e, he, h⟩
    · rintro (h | ⟨e, he, h⟩)
      · exact Or.inl h
      · exact Or.inr ⟨e.2, List.mem_map.2 ⟨e, he, rfl⟩, h⟩
  · rw [h2.amt]; rfl
  · rw [h2.amt]; rfl

/-- A posting without an amount crashes. -/
theorem C27_no_amount_crashes (es : List (Transaction × Posting)) (ha : ∃ e ∈ es, e.2.amount = none) :
    Journal.addEach es newJournal = none := by
  have key : ∀ (es : List (Transaction × Posting)) (j : Journal) (ps : List Posting), j.heap.Books ps →
      (∃ e ∈ es, e.2.amount = none) → Journal.addEach es j = none := by
    intro es
    induction es with
    | nil => rintro j ps b ⟨p, hp, _⟩; cases hp
    | cons q qs ih =>
      rintro j ps b ⟨p, hp, hn⟩
      rw [Journal.addEach, Journal.addPosting]
      cases ha : q.2.amount with
      | none => rw [wireUp_panics _ b.full q.1 q.2 ha]; rfl
      | some amt =>
        obtain ⟨h', e, b'⟩ := b.wireUp q.1 q.2 ha
        rw [e]
        refine ih { j with heap := h' } (ps ++ [q.2]) b' ⟨p, ?_, hn⟩
        rcases List.mem_cons.1 hp with rfl | hp
        · rw [ha] at hn; cases hn
        · exact hp
  exact key es newJournal [] (newAccount_books _) ha

/-- Postings on three levels. -/
def samplePostings : List (Transaction × Posting) :=
  let p : String → String → I64 → Transaction × Posting := fun s c q => ({}, { accountPath := str s, amount := some ⟨str c, q⟩ })
  [p "A:B" "" 100, p "A" "£" 20, p "A:B:C" "$" 3, p "D" "" (-123)]

example :
    (∀ e ∈ samplePostings, e.2.amount ≠ none) ∧
    ((Journal.addEach samplePostings newJournal).map fun j => (j.heap.amt [str "A"], j.heap.amt [str "A", str "B"], j.heap.amt [])) =
      some (⟨str "£", 123⟩, ⟨str "$", 103⟩, ⟨str "£", 0⟩) := by decide

/-! ### C29 A parent's balance is its own postings plus its children's balances -/

theorem valueOf_cons (p : Posting) (ps : List Posting) : valueOf (p :: ps) = p.value + valueOf ps := by simp [valueOf]

theorem valueOf_perm {ps qs : List Posting} (h : ps.Perm qs) : valueOf ps = valueOf qs := by
  unfold valueOf
  exact (h.map _).sum_eq

theorem sum_single_key {v : I64} {k : Str} : ∀ {ks : List Str}, ks.Nodup → k ∈ ks → (ks.map fun x => if x = k then v else 0).sum = v := by
  intro ks
  induction ks with
  | nil => intro _ h; cases h
  | cons a as ih =>
    intro hn hm
    rw [List.nodup_cons] at hn
    rw [List.map_cons, List.sum_cons]
    rcases List.mem_cons.1 hm with rfl | hm
    · have : (as.map fun x => if x = k then v else 0).sum = 0 := by
        rw [List.sum_eq_zero]
        intro x hx
        obtain ⟨y, hy, rfl⟩ := List.mem_map.1 hx
        rw [if_neg]
        rintro rfl
        exact hn.1 hy
      rw [this]; simp
    · rw [ih hn.2 hm, if_neg, zero_add]
      rintro rfl
      exact hn.1 hm

theorem prefix_next {cs comps : List Str} (h : cs <+: comps) (hne : comps ≠ cs) : ∃ k, cs ++ [k] <+: comps := by
  obtain ⟨t, rfl⟩ := h
  cases t with
  | nil => simp at hne
  | cons k t => exact ⟨k, by rw [show cs ++ k :: t = (cs ++ [k]) ++ t by simp]; exact List.prefix_append _ _⟩

theorem prefix_snoc_inj {cs comps : List Str} {k l : Str} (h1 : cs ++ [k] <+: comps) (h2 : cs ++ [l] <+: comps) : k = l := by
  have := List.prefix_of_prefix_length_le h1 h2 (by simp)
  have h3 := List.IsPrefix.eq_of_length this (by simp)
  simpa using h3

/-- The postings below an account are its own and those below its children. -/
theorem below_split (cs ks : List _) (hn : ks.Nodup) : ∀ ps : List Posting, (∀ p ∈ ps, ∀ k, cs ++ [k] <+: p.components → k ∈ ks) →
    valueOf (below cs ps) = valueOf (exactly cs ps) + (ks.map fun k => valueOf (below (cs ++ [k]) ps)).sum := by
  intro ps
  induction ps with
  | nil => intro _; simp [below, exactly, valueOf]
  | cons p ps ih =>
    intro hk
    have ih' := ih (fun q hq => hk q (by simp [hq]))
    have hb : ∀ ds : List Str, valueOf (below ds (p :: ps)) = (if ds <+: p.components then p.value else 0) + valueOf (below ds ps) := by
      intro ds
      unfold below
      rw [List.filter_cons]
      by_cases hd : ds <+: p.components
      · simp [hd, valueOf_cons]
      · simp [hd]
    have he : valueOf (exactly cs (p :: ps)) = (if p.components = cs then p.value else 0) + valueOf (exactly cs ps) := by
      unfold exactly
      rw [List.filter_cons]
      by_cases hd : p.components = cs
      · simp [hd, valueOf_cons]
      · simp [hd]
    rw [hb, he, ih']
    simp only [hb]
    rw [List.sum_map_add]
    have hs : (ks.map fun k => if cs ++ [k] <+: p.components then p.value else 0).sum =
        if cs <+: p.components ∧ p.components ≠ cs then p.value else 0 := by
      by_cases hc : cs <+: p.components ∧ p.components ≠ cs
      · obtain ⟨k, hk'⟩ := prefix_next hc.1 hc.2
        rw [if_pos hc]
        have : (ks.map fun x => if cs ++ [x] <+: p.components then p.value else 0) = ks.map fun x => if x = k then p.value else 0 := by
          refine List.map_congr_left fun x _ => ?_
          by_cases hx : x = k
          · subst hx; simp [hk']
          · rw [if_neg hx, if_neg fun h => hx (prefix_snoc_inj h hk')]
        rw [this]
        exact sum_single_key hn (hk p (by simp) k hk')
      · rw [if_neg hc, List.sum_eq_zero]
        intro x hx
        obtain ⟨k, _, rfl⟩ := List.mem_map.1 hx
        rw [if_neg]
        intro hp
        apply hc
        refine ⟨(List.prefix_append _ _).trans hp, ?_⟩
        intro he
        have := hp.length_le
        rw [he] at this
        simp at this
    rw [hs]
    by_cases h1 : cs <+: p.components
    · by_cases h2 : p.components = cs
      · simp [h2, add_assoc]
      · simp [h1, h2, add_left_comm]
    · have h2 : p.components ≠ cs := by rintro h; exact h1 (h ▸ List.prefix_rfl)
      simp [h1, h2]

/-- In the tree of any sequence of postings, every account's quantity is the sum of its own postings and its children's quantities. -/
theorem C29_parent_is_own_plus_children (es : List (Transaction × Posting)) (j : Journal) (h : Journal.addEach es newJournal = some j)
    (r : Ref) (hr : r < j.heap.next) :
    (j.heap.node r).amount.quantity = valueOf (j.heap.node r).postings +
      ((j.heap.node r).children.map fun kc => (j.heap.node kc.2).amount.quantity).sum := by
  have ha : ∀ e ∈ es, e.2.amount ≠ none := by
    intro e he hn
    rw [C27_no_amount_crashes es ⟨e, he, hn⟩] at h
    cases h
  obtain ⟨j', h1, b⟩ := addEach_books es newJournal [] (newAccount_books _) ha
  rw [h] at h1
  cases h1
  rw [List.nil_append] at b
  obtain ⟨cs, hcs⟩ := b.full.covers r hr
  have e1 := b.amt cs
  have e2 := b.own cs
  rw [Heap.amt_at hcs] at e1
  rw [Heap.own_at hcs] at e2
  rw [e1, e2]
  have hkids : ((j.heap.node r).children.map fun kc => (j.heap.node kc.2).amount.quantity) =
      ((j.heap.node r).children.map Prod.fst).map fun k => valueOf (below (cs ++ [k]) (es.map Prod.snd)) := by
    rw [List.map_map]
    refine List.map_congr_left fun kc hkc => ?_
    have hc : j.heap.at (cs ++ [kc.1]) = some kc.2 := by
      simp only [Heap.at] at hcs ⊢
      rw [Heap.walk_snoc, hcs]
      exact b.full.toTree.child_iff.2 hkc
    have := b.amt (cs ++ [kc.1])
    rw [Heap.amt_at hc] at this
    rw [this]
    rfl
  rw [hkids]
  refine below_split cs _ (b.full.keys r) _ ?_
  intro p hp k hk
  have : j.heap.Has (cs ++ [k]) := (b.has _).2 (Or.inr ⟨p, hp, hk⟩)
  obtain ⟨x, hx⟩ := has_iff.1 this
  simp only [Heap.at] at hcs hx
  rw [Heap.walk_snoc, hcs] at hx
  exact List.mem_map.2 ⟨(k, x), lookupKey_mem hx, rfl⟩

/-- The account `A` of the sample has a posting of its own and a child. -/
example : ((Journal.addEach samplePostings newJournal).map fun j =>
    (valueOf (j.heap.own [str "A"]), ((j.heap.at [str "A"]).map fun r => ((j.heap.node r).children.map fun kc => (j.heap.node kc.2).amount.quantity)))) =
    some (20, some [103]) := by decide

/-! ### C33 Posting order does not matter for balances -/

theorem below_perm {ps qs : List Posting} (h : ps.Perm qs) (cs : List Str) : valueOf (below cs ps) = valueOf (below cs qs) :=
  valueOf_perm (h.filter _)

/-- The same postings in another order: the same accounts with the same quantities. -/
theorem C33_order_irrelevant (es es' : List (Transaction × Posting)) (hp : es.Perm es') (ha : ∀ e ∈ es, e.2.amount ≠ none) :
    ∃ j j', Journal.addEach es newJournal = some j ∧ Journal.addEach es' newJournal = some j' ∧
      ∀ cs, (j.heap.Has cs ↔ j'.heap.Has cs) ∧ (j.heap.amt cs).quantity = (j'.heap.amt cs).quantity ∧
        (j.heap.own cs).Perm (j'.heap.own cs) := by
  obtain ⟨j, h1, h2⟩ := C27_balance_is_sum es ha
  obtain ⟨j', h1', h2'⟩ := C27_balance_is_sum es' (fun e he => ha e (hp.mem_iff.2 he))
  refine ⟨j, j', h1, h1', fun cs => ⟨?_, ?_, ?_⟩⟩
  · rw [(h2 cs).1, (h2' cs).1]
    simp [hp.mem_iff]
  · rw [(h2 cs).2.1, (h2' cs).2.1]
    exact below_perm (hp.map _) cs
  · rw [(h2 cs).2.2.2, (h2' cs).2.2.2]
    exact (hp.map _).filter _

/-- With several commodities the displayed commodity does depend on the order (so it is not part of the claim above). -/
example :
    ((Journal.addEach samplePostings newJournal).map fun j => j.heap.amt []) = some ⟨str "£", 0⟩ ∧
    ((Journal.addEach samplePostings.reverse newJournal).map fun j => j.heap.amt []) = some ⟨str "$", 0⟩ := by decide

/-! ### C61 A filtered balance is the sum of the selected postings -/

theorem delivered_calls [Unicode] (fs : FileSystem) (maxOpen : Nat) (bytes : List UInt8) (path : Str) :
    delivered fs maxOpen bytes path = callsOf fs recorder maxOpen bytes path [] := by
  have key : ∀ (cs : List Call) (u : List Call × List Call), (logged recorder).replay cs u = ((u.1 ++ cs, u.2 ++ cs), none) := by
    intro cs
    induction cs with
    | nil => intro u; simp [Handlers.replay]
    | cons c cs ih =>
      intro u
      rw [Handlers.replay]
      have hc : (logged recorder).call u c = ((u.1 ++ [c], u.2 ++ [c]), none) := by cases c <;> rfl
      rw [hc]
      simp only [Step.andThen]
      rw [ih]
      simp
  have h := (parse_replay fs (logged recorder) maxOpen bytes path ([], [])).1
  unfold callsOf
  rw [h, key]
  simp

theorem delivered_all [Unicode] {P : Transaction → Prop}
    (hP : ∀ (t : Transaction) (cur : Option Posting) (budget : Bool), t.ElidedOK →
      (endNormalTransaction cur budget t).2 = none → P (endNormalTransaction cur budget t).1)
    (fs : FileSystem) (maxOpen : Nat) (bytes : List UInt8) (path : Str) : ∀ c ∈ delivered fs maxOpen bytes path, P c.transaction := by
  rw [delivered_calls]
  exact calls_all hP fs recorder maxOpen bytes path []

/-- Replaying calls with the balance handlers adds the selected postings. -/
theorem balance_replay (e : Env) (ho : ∀ l, (e.mapOrder l).Perm l) (calls : List Call) : ∀ (j j' : Journal) (ps : List Posting),
    j.heap.Books ps → e.balanceHandlers.replay calls j = (j', none) →
    ∃ ps', j'.heap.Books (ps ++ ps') ∧ ps'.Perm (e.selected calls) := by
  induction calls with
  | nil =>
    intro j j' ps b h
    cases h
    exact ⟨[], by simpa using b, by simp [Env.selected]⟩
  | cons c calls ih =>
    intro j j' ps b h
    rw [Handlers.replay] at h
    have hsel : e.selected (c :: calls) = e.selectedOf c ++ e.selected calls := by simp [Env.selected]
    rw [hsel]
    cases c with
    | periodic pt f =>
      simp only [Handlers.call, Env.balanceHandlers, Step.andThen] at h
      obtain ⟨ps', b', p'⟩ := ih _ j' ps (show (j.addPeriodicTransaction pt f).heap.Books ps from b) h
      exact ⟨ps', b', by simpa [Env.selectedOf] using p'⟩
    | normal t f =>
      simp only [Handlers.call, Env.balanceHandlers] at h
      rw [Env.balanceHandler] at h
      rcases hr : e.withinDateRange t with err | _ | _
      · simp only [Env.checkAgainstFilters, hr, Step.andThen] at h
        cases h
      · rw [C44_out_of_range e t hr] at h
        simp only [List.length_nil, and_self, if_true, Step.andThen] at h
        obtain ⟨ps', b', p'⟩ := ih j j' ps b h
        exact ⟨ps', b', by simpa [Env.selectedOf, hr] using p'⟩
      · obtain ⟨qs, h1, h2⟩ := C44_any_of e ho t hr
        rw [h1] at h
        simp only at h
        have hso : e.selectedOf (.normal t f) = selection e.filters t := by simp [Env.selectedOf, hr]
        rw [hso]
        split at h
        · rename_i hc
          have h0 : qs = [] := by simpa using hc.2
          rw [h0] at h2
          rw [List.nil_perm.1 h2]
          exact ih j j' ps b h
        · have bj : (j.addTransaction t f).heap.Books ps := b
          by_cases ha : ∀ p ∈ qs, p.amount ≠ none
          · obtain ⟨j2, h3, h4, _⟩ := addPostings_books t qs _ ps bj ha
            rw [h3] at h
            obtain ⟨ps', b', p'⟩ := ih j2 j' _ h4 h
            exact ⟨qs ++ ps', by simpa using b', h2.append p'⟩
          · push Not at ha
            rw [addPostings_panics t qs _ ps bj ha] at h
            cases h

/-- If the journal parses and the balance command gets through: the accounts are the root and the prefixes of the selected
postings' paths, and each has as quantity the sum of the selected postings below it. -/
theorem C61_filtered_balance [Unicode] (e : Env) (ho : ∀ l, (e.mapOrder l).Perm l) (fs : FileSystem) (maxOpen : Nat) (bytes : List UInt8)
    (path : Str) (j : Journal) (h : runParse fs maxOpen bytes path e.balanceHandlers newJournal = .ok j) (cs : List Str) :
    (j.heap.Has cs ↔ cs = [] ∨ ∃ p ∈ e.selected (delivered fs maxOpen bytes path), cs <+: p.components) ∧
    (j.heap.amt cs).quantity = valueOf (below cs (e.selected (delivered fs maxOpen bytes path))) := by
  have h' := (runParse_ok (v := j)).1 (by
    unfold runParse at h
    split at h
    · rename_i st hst
      cases h
      exact ⟨st, hst, rfl⟩
    · cases h)
  obtain ⟨ps', b, p⟩ := balance_replay e ho _ newJournal j [] (newAccount_books _) h'.2
  rw [List.nil_append] at b
  refine ⟨?_, ?_⟩
  · rw [b.has]
    simp [p.mem_iff]
  · rw [b.amt]
    exact below_perm p cs

/-- It gets through if every selected posting carries an amount and the date flags can be read. -/
theorem C61_runs [Unicode] (e : Env) (ho : ∀ l, (e.mapOrder l).Perm l) (fs : FileSystem) (maxOpen : Nat) (bytes : List UInt8) (path : Str)
    (hr : rejection fs maxOpen bytes path = none) (hd : ∀ t, ∃ b, e.withinDateRange t = .ok b)
    (ha : ∀ p ∈ e.selected (delivered fs maxOpen bytes path), p.amount ≠ none) :
    ∃ j, runParse fs maxOpen bytes path e.balanceHandlers newJournal = .ok j := by
  have key : ∀ (calls : List Call) (j : Journal) (ps : List Posting), j.heap.Books ps → (∀ p ∈ e.selected calls, p.amount ≠ none) →
      ∃ j', e.balanceHandlers.replay calls j = (j', none) := by
    intro calls
    induction calls with
    | nil => intro j ps _ _; exact ⟨j, rfl⟩
    | cons c calls ih =>
      intro j ps b ha
      have hsel : e.selected (c :: calls) = e.selectedOf c ++ e.selected calls := by simp [Env.selected]
      rw [hsel] at ha
      rw [Handlers.replay]
      have ha2 := fun p hp => ha p (List.mem_append_right _ hp)
      cases c with
      | periodic pt f =>
        simp only [Handlers.call, Env.balanceHandlers, Step.andThen]
        exact ih _ ps b ha2
      | normal t f =>
        simp only [Handlers.call, Env.balanceHandlers]
        rw [Env.balanceHandler]
        obtain ⟨x, hx⟩ := hd t
        cases x with
        | false =>
          rw [C44_out_of_range e t hx]
          simp only [List.length_nil, and_self, if_true, Step.andThen]
          exact ih j ps b ha2
        | true =>
          obtain ⟨qs, h1, h2⟩ := C44_any_of e ho t hx
          rw [h1]
          simp only
          split
          · exact ih j ps b ha2
          · obtain ⟨j2, h3, h4, _⟩ := addPostings_books t qs (j.addTransaction t f) ps b (fun p hp => ha p (List.mem_append_left _ (by
              rw [show e.selectedOf (.normal t f) = selection e.filters t by simp [Env.selectedOf, hx]]
              exact h2.mem_iff.1 hp)))
            rw [h3]
            exact ih j2 _ h4 ha2
  obtain ⟨j, hj⟩ := key _ newJournal [] (newAccount_books _) ha
  obtain ⟨st, h1, h2⟩ := (runParse_ok (v := j)).2 ⟨hr, hj⟩
  refine ⟨j, ?_⟩
  unfold runParse
  rw [h1, ← h2]

/-- A journal and a filter that picks two of its three postings. -/
example :
    letI := asciiUnicode
    let text := utf8 "2020-01-01 x\n  A:B  1\n  A:C  2\n  D\n"
    let e : Env := { filters := [{ regex := fun s => s.take 1 == str "A", ftype := .accountName }] }
    (e.selected (delivered noFiles 1 text (str "f"))).map Posting.value = [100, 200] ∧
    ((runParse noFiles 1 text (str "f") e.balanceHandlers newJournal).toOption.map fun j =>
      (j.heap.amt [], j.heap.amt [str "A", str "C"], j.heap.at [str "D"])) = some (⟨[], 300⟩, ⟨[], 200⟩, none) := by
  decide +kernel

/-! ### C28 The unfiltered balance total is zero -/

theorem unlink_amount (h : Heap) (r x : Ref) : ((h.unlink r).node x).amount = (h.node x).amount := by
  unfold Heap.unlink
  cases (h.node r).parent with
  | none => simp only [Heap.node_modify]; split <;> simp_all
  | some p => simp only [Heap.node_modify]; split <;> split <;> simp_all

theorem removeEmptyChildren_amount (h : Heap) (r x : Ref) : ((h.removeEmptyChildren r).node x).amount = (h.node x).amount := by
  unfold Heap.removeEmptyChildren
  generalize h.findAccounts r _ = l
  induction l generalizing h with
  | nil => rfl
  | cons m l ih =>
    rw [List.foldl_cons, ih]
    split
    · rfl
    · exact unlink_amount h m x

theorem selected_all_zero (e : Env) (hf : e.filters = []) (calls : List Call) (hb : ∀ c ∈ calls, c.transaction.Balanced) :
    valueOf (e.selected calls) = 0 := by
  induction calls with
  | nil => rfl
  | cons c calls ih =>
    have hsel : e.selected (c :: calls) = e.selectedOf c ++ e.selected calls := by simp [Env.selected]
    have hz : valueOf (e.selectedOf c) = 0 := by
      cases c with
      | periodic pt f => rfl
      | normal t f =>
        simp only [Env.selectedOf]
        split
        · have : selection e.filters t = t.postings := by simp [selection, WholeSelected, hf]
          rw [this]
          exact hb (.normal t f) (by simp)
        · rfl
    have happ : ∀ a b : List Posting, valueOf (a ++ b) = valueOf a + valueOf b := by intro a b; simp [valueOf]
    rw [hsel, happ, hz, ih fun c hc => hb c (by simp [hc]), zero_add]

/-- Without filters (and with any date flags, in any of the report's forms), whenever the balance command prints a report, the
report ends in a line that reads `0.00`. -/
theorem C28_total_zero [Unicode] (e : Env) (hf : e.filters = []) (showZero flatten collapse : Bool) (fs : FileSystem) (maxOpen : Nat)
    (bytes : List UInt8) (path : Str) (text : Str) (h : balanceCmd e showZero flatten collapse fs maxOpen bytes path = .ok text) :
    ∃ body, text = body ++ str "\n--------------------\n                0.00\n" := by
  unfold balanceCmd at h
  cases hj : runParse fs maxOpen bytes path e.balanceHandlers newJournal with
  | error f => rw [hj] at h; cases h
  | ok j =>
    rw [hj] at h
    cases h
    -- without filters the iteration order is never used
    have hz : (j.heap.node 0).amount.quantity = 0 := by
      have hsame : ∀ t, e.checkAgainstFilters t = ({ e with mapOrder := id } : Env).checkAgainstFilters t := by
        intro t
        unfold Env.checkAgainstFilters
        rw [show ({ e with mapOrder := id } : Env).withinDateRange t = e.withinDateRange t from rfl]
        simp only [hf]
        rfl
      have hhand : e.balanceHandlers = ({ e with mapOrder := id } : Env).balanceHandlers := by
        unfold Env.balanceHandlers
        congr 2
        funext j t l
        unfold Env.balanceHandler
        rw [hsame]
      rw [hhand] at hj
      have := (C61_filtered_balance ({ e with mapOrder := id } : Env) (fun l => List.Perm.refl _) fs maxOpen bytes path j hj []).2
      rw [Heap.amt_at (show j.heap.at [] = some 0 from rfl)] at this
      rw [this]
      have hb : below [] = (id : List Posting → List Posting) := by funext ps; simp [below]
      rw [hb]
      exact selected_all_zero _ hf _ (delivered_all (fun _ cur budget h => endNormal_ok h cur budget) fs maxOpen bytes path)
    have hroot : ((prepareBalance showZero j.heap).node 0).amount.quantity = 0 := by
      unfold prepareBalance
      split
      · exact hz
      · rw [removeEmptyChildren_amount]; exact hz
    generalize hhp : prepareBalance showZero j.heap = hp at hroot
    have hd : padLeft 20 ((hp.node 0).amount.display false) = str "                0.00" := by
      unfold Amount.display
      rw [hroot, if_neg (by decide)]
      decide +kernel
    refine ⟨if flatten then flattenedTree hp reportPrepender 0 else treeReport hp reportPrepender collapse 0, ?_⟩
    show report (prepareBalance showZero j.heap) flatten collapse = _
    unfold report
    simp only
    rw [hhp, hd, List.append_assoc, List.append_assoc, List.append_assoc, List.append_assoc]
    congr 1

/-- A report. -/
example :
    letI := asciiUnicode
    (balanceCmd {} false false false noFiles 1 (utf8 "2020-01-01 x\n  A:B  1\n  A:C  2\n  D\n") (str "f")).toOption =
      some (str "                3.00  A\n                1.00    B\n                2.00    C\n               -3.00  D\n--------------------\n                0.00\n") := by
  decide +kernel

end Gledger
