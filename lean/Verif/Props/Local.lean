/-
C120, C121: changes of a journal stay local in the balance and budget reports.
-/
import Verif.Spec.Local
import Verif.Props.Heeded
import Verif.Props.MapOrders

namespace Gledger

set_option maxRecDepth 100000

/-! ### C120 The lines of an account in the balance report -/

theorem below_head {cs : List Str} {x : Str} (h : cs.head? = some x) (ps : List Posting) : below cs ps = below cs (below [x] ps) := by
  obtain ⟨ds, rfl⟩ : ∃ ds, cs = x :: ds := by
    cases cs with
    | nil => cases h
    | cons c ds => cases h; exact ⟨ds, rfl⟩
  unfold below
  rw [List.filter_filter]
  apply List.filter_congr
  intro p _
  have : x :: ds <+: p.components → [x] <+: p.components := fun h => List.IsPrefix.trans ⟨ds, rfl⟩ h
  by_cases h : x :: ds <+: p.components <;> simp [h, this]

theorem head_prefix {es cs : List Str} {x : Str} (h : cs.head? = some x) (he : es <+: cs) (hn : es ≠ []) : es.head? = some x := by
  obtain ⟨t, rfl⟩ := he
  cases es with
  | nil => exact absurd rfl hn
  | cons e es => exact h

theorem shown_head {ps ps' : List Posting} {x : Str} (hp : (below [x] ps).Perm (below [x] ps')) (showZero : Bool) {cs : List Str} (h : cs.head? = some x) :
    Shown showZero ps cs ↔ Shown showZero ps' cs := by
  have hv : ∀ es, es.head? = some x → (below es ps).Perm (below es ps') := by
    intro es he
    rw [below_head he ps, below_head he ps']
    exact hp.filter _
  have hm : ∀ {qs : List Posting}, (∃ p ∈ qs, cs <+: p.components) ↔ below cs qs ≠ [] := by
    intro qs
    constructor
    · rintro ⟨p, hp, hc⟩ h0
      have : p ∈ below cs qs := List.mem_filter.2 ⟨hp, by simpa using hc⟩
      rw [h0] at this
      cases this
    · intro hne
      obtain ⟨p, hp⟩ := List.exists_mem_of_ne_nil _ hne
      exact ⟨p, List.mem_of_mem_filter hp, by simpa using List.of_mem_filter hp⟩
  unfold Shown
  rw [hm, hm]
  refine and_congr (or_congr Iff.rfl (not_congr ⟨fun h0 => ?_, fun h0 => ?_⟩)) (or_congr Iff.rfl (forall_congr' fun es => ?_))
  · have := hv cs h; rw [h0] at this; exact List.nil_perm.1 this
  · have := hv cs h; rw [h0] at this; exact List.perm_nil.1 this
  · refine forall_congr' fun he => forall_congr' fun hn => ?_
    rw [valueOf_perm (hv es (head_prefix h he hn))]

theorem leaf_below {showZero : Bool} {ps : List Posting} {cs : List Str} (h : Shown showZero ps cs) :
    ∃ ds, cs <+: ds ∧ Shown showZero ps ds ∧ ∀ c, ¬ Shown showZero ps (ds ++ [c]) := by
  obtain ⟨N, hN⟩ : ∃ N, ∀ p ∈ ps, p.components.length ≤ N := by
    clear h
    induction ps with
    | nil => exact ⟨0, by simp⟩
    | cons p ps ih =>
      obtain ⟨N, hN⟩ := ih
      refine ⟨max N p.components.length, fun q hq => ?_⟩
      rcases List.mem_cons.1 hq with rfl | hq
      · exact le_max_right _ _
      · exact (hN q hq).trans (le_max_left _ _)
  have key : ∀ k (cs : List Str), N + 1 ≤ cs.length + k → Shown showZero ps cs →
      ∃ ds, cs <+: ds ∧ Shown showZero ps ds ∧ ∀ c, ¬ Shown showZero ps (ds ++ [c]) := by
    intro k
    induction k with
    | zero =>
      intro cs hl hs
      rcases hs.1 with rfl | ⟨p, hp, hc⟩
      · simp at hl
      · have := hN p hp
        have := hc.length_le
        omega
    | succ k ih =>
      intro cs hl hs
      by_cases hx : ∃ c, Shown showZero ps (cs ++ [c])
      · obtain ⟨c, hc⟩ := hx
        obtain ⟨ds, d1, d2, d3⟩ := ih (cs ++ [c]) (by simp; omega) hc
        exact ⟨ds, (List.prefix_append cs [c]).trans d1, d2, d3⟩
      · exact ⟨cs, List.prefix_rfl, hs, fun c hc => hx ⟨c, hc⟩⟩
  exact key (N + 1) cs (by omega) h

theorem linesOf_eq {L L' : List (List Str)} {f f' : List Str → Str} {x : Str} (h : L.Pairwise PathLt) (h' : L'.Pairwise PathLt)
    (hm : ∀ cs, cs.head? = some x → (cs ∈ L ↔ cs ∈ L')) (hf : ∀ cs ∈ L, cs.head? = some x → f cs = f' cs) :
    linesOf x (L.map fun cs => (cs, f cs)) = linesOf x (L'.map fun cs => (cs, f' cs)) := by
  have e : L.filter (fun cs => cs.head? = some x) = L'.filter fun cs => cs.head? = some x := by
    refine pairwise_unique PathLt.irrefl (fun _ _ _ => PathLt.trans) (h.filter _) (h'.filter _) fun cs => ?_
    simp only [List.mem_filter, decide_eq_true_eq]
    exact ⟨fun ⟨a, b⟩ => ⟨(hm cs b).1 a, b⟩, fun ⟨a, b⟩ => ⟨(hm cs b).2 a, b⟩⟩
  unfold linesOf
  rw [List.filter_map, List.filter_map]
  show List.map _ (L.filter fun cs => cs.head? = some x) = List.map _ (L'.filter fun cs => cs.head? = some x)
  rw [← e]
  apply List.map_congr_left
  intro cs hcs
  rw [List.mem_filter, decide_eq_true_eq] at hcs
  rw [hf cs hcs.1 hcs.2]

theorem balanceLines_of {showZero : Bool} {ps : List Posting} {L : List (List Str)} {f : List Str → Str} {text : Str} (h : L.Pairwise PathLt)
    (hL : ∀ cs ∈ L, Shown showZero ps cs) (hl : ∀ cs, cs ≠ [] → Shown showZero ps cs → (∀ c, ¬ Shown showZero ps (cs ++ [c])) → cs ∈ L)
    (hr : ∀ cs ∈ L, cs = [] → ∀ c, ¬ Shown showZero ps [c])
    (hf : ∀ cs, ∃ label, f cs = amountColumn (tally (below cs ps)) ++ label) (ht : text = joinLines (L.map f) ++ footer (tally ps)) :
    BalanceLines showZero ps text (L.map fun cs => (cs, f cs)) where
  text_eq := by rw [ht, List.map_map]; rfl
  sorted := by
    rw [List.map_map, show Prod.fst ∘ (fun cs => (cs, f cs)) = id from rfl, List.map_id]
    exact h
  shown := by
    intro l hm
    obtain ⟨cs, hc, rfl⟩ := List.mem_map.1 hm
    exact hL cs hc
  amount := by
    intro l hm
    obtain ⟨cs, hc, rfl⟩ := List.mem_map.1 hm
    exact hf cs
  every := by
    intro cs hn hs
    obtain ⟨ds, d1, d2, d3⟩ := leaf_below hs
    refine ⟨(ds, f ds), List.mem_map.2 ⟨ds, hl ds ?_ d2 d3, rfl⟩, d1⟩
    rintro rfl
    exact hn (List.prefix_nil.1 d1)
  root := by
    intro l hm
    obtain ⟨cs, hc, rfl⟩ := List.mem_map.1 hm
    exact hr cs hc

/-- Two reports in the same form: the lines about a top-level account, and about those below it, are the same in both if the same is posted there, with
amounts in the same commodities. -/
theorem C120_reports {showZero flatten collapse : Bool} {ps ps' : List Posting} {text text' : Str} (R : BalanceReport showZero flatten collapse ps text)
    (R' : BalanceReport showZero flatten collapse ps' text') :
    ∃ ls ls', BalanceLines showZero ps text ls ∧ BalanceLines showZero ps' text' ls' ∧
      ∀ x, (below [x] ps).Perm (below [x] ps') → (∀ cs, cs.head? = some x → firstCommodity (below cs ps) = firstCommodity (below cs ps')) →
        linesOf x ls = linesOf x ls' := by
  have tl : ∀ x, (below [x] ps).Perm (below [x] ps') → (∀ cs, cs.head? = some x → firstCommodity (below cs ps) = firstCommodity (below cs ps')) →
      ∀ cs, cs.head? = some x → tally (below cs ps) = tally (below cs ps') := by
    intro x hp hc cs h
    have hv : (below cs ps).Perm (below cs ps') := by
      rw [below_head h ps, below_head h ps']
      exact hp.filter _
    unfold tally
    rw [hc cs h, (hv.map Posting.value).sum_eq]
  have snoc : ∀ {cs : List Str} {x c : Str}, cs.head? = some x → (cs ++ [c]).head? = some x := by
    intro cs x c h
    cases cs with
    | nil => cases h
    | cons a cs => exact h
  unfold BalanceReport at R R'
  cases flatten with
  | true =>
    rw [if_pos rfl] at R R'
    obtain ⟨L, a1, a2, a3⟩ := R
    obtain ⟨L', b1, b2, b3⟩ := R'
    refine ⟨_, _, balanceLines_of a1 (fun cs h => ((a2 cs).1 h).1) (fun cs _ h1 h2 => (a2 cs).2 ⟨h1, h2⟩)
        (fun cs h h0 c => by subst h0; exact ((a2 []).1 h).2 c) (fun cs => ⟨_, rfl⟩) a3,
      balanceLines_of b1 (fun cs h => ((b2 cs).1 h).1) (fun cs _ h1 h2 => (b2 cs).2 ⟨h1, h2⟩)
        (fun cs h h0 c => by subst h0; exact ((b2 []).1 h).2 c) (fun cs => ⟨_, rfl⟩) b3, fun x hp hc => ?_⟩
    refine linesOf_eq a1 b1 (fun cs h => ?_) fun cs _ h => ?_
    · rw [a2, b2, shown_head hp showZero h]
      exact and_congr Iff.rfl (forall_congr' fun c => not_congr (shown_head hp showZero (snoc h)))
    · rw [tl x hp hc cs h]
  | false =>
    rw [if_neg (by simp)] at R R'
    cases collapse with
    | false =>
      rw [if_neg (by simp)] at R R'
      obtain ⟨L, a1, a2, a3⟩ := R
      obtain ⟨L', b1, b2, b3⟩ := R'
      refine ⟨_, _, balanceLines_of a1 (fun cs h => ((a2 cs).1 h).1) (fun cs h0 h1 _ => (a2 cs).2 ⟨h1, h0⟩)
          (fun cs h h0 => absurd h0 ((a2 cs).1 h).2) (fun cs => ⟨_, List.append_assoc _ _ _⟩) a3,
        balanceLines_of b1 (fun cs h => ((b2 cs).1 h).1) (fun cs h0 h1 _ => (b2 cs).2 ⟨h1, h0⟩)
          (fun cs h h0 => absurd h0 ((b2 cs).1 h).2) (fun cs => ⟨_, List.append_assoc _ _ _⟩) b3, fun x hp hc => ?_⟩
      refine linesOf_eq a1 b1 (fun cs h => ?_) fun cs _ h => ?_
      · rw [a2, b2, shown_head hp showZero h]
      · rw [tl x hp hc cs h]
    | true =>
      rw [if_pos rfl] at R R'
      obtain ⟨L, one, a1, a0, a2, a3⟩ := R
      obtain ⟨L', one', b1, b0, b2, b3⟩ := R'
      have leaf : ∀ {qs : List Posting} {one : List Str → Bool}, (∀ cs, Shown showZero qs cs → (one cs = true ↔ OneBelow (Shown showZero qs) cs)) →
          ∀ cs, Shown showZero qs cs → (∀ c, ¬ Shown showZero qs (cs ++ [c])) → one cs = false := by
        intro qs one h cs hs hn
        rw [Bool.eq_false_iff]
        intro ht
        obtain ⟨c, hc, _⟩ := (h cs hs).1 ht
        exact hn c hc
      refine ⟨_, _, balanceLines_of a1 (fun cs h => ((a2 cs).1 h).1) (fun cs h0 h1 h2 => (a2 cs).2 ⟨h1, h0, leaf a0 cs h1 h2⟩)
          (fun cs h h0 => absurd h0 ((a2 cs).1 h).2.1) (fun cs => ⟨_, List.append_assoc _ _ _⟩) a3,
        balanceLines_of b1 (fun cs h => ((b2 cs).1 h).1) (fun cs h0 h1 h2 => (b2 cs).2 ⟨h1, h0, leaf b0 cs h1 h2⟩)
          (fun cs h h0 => absurd h0 ((b2 cs).1 h).2.1) (fun cs => ⟨_, List.append_assoc _ _ _⟩) b3, fun x hp hc => ?_⟩
      have ho : ∀ cs, cs.head? = some x → Shown showZero ps cs → one cs = one' cs := by
        intro cs h hs
        have := (a0 cs hs).trans (Iff.trans ?_ (b0 cs ((shown_head hp showZero h).1 hs)).symm)
        · cases h1 : one cs <;> cases h2 : one' cs <;> simp_all
        · refine exists_congr fun c => and_congr (shown_head hp showZero (snoc h)) (forall_congr' fun d => imp_congr (shown_head hp showZero (snoc h)) Iff.rfl)
      refine linesOf_eq a1 b1 (fun cs h => ?_) fun cs hcs h => ?_
      · rw [a2, b2, ← shown_head hp showZero h]
        exact ⟨fun ⟨q1, q2, q3⟩ => ⟨q1, q2, by rw [← ho cs h q1]; exact q3⟩, fun ⟨q1, q2, q3⟩ => ⟨q1, q2, by rw [ho cs h q1]; exact q3⟩⟩
      · have hs := ((a2 cs).1 hcs).1
        have hst : stopsBy one cs = stopsBy one' cs := by
          unfold stopsBy
          apply List.filter_congr
          intro i hi
          by_cases h0 : i = 0
          · simp [h0]
          · have hn : cs.take i ≠ [] := by
              intro hnil
              rw [List.take_eq_nil_iff] at hnil
              rcases hnil with h1 | rfl
              · exact h0 h1
              · cases h
            rw [ho _ (head_prefix h (List.take_prefix i cs) hn) (hs.up (List.take_prefix i cs))]
        rw [tl x hp hc cs h]
        simp only [levelBy, chainBy, hst]

theorem flatten_eq_flatMap {α β : Type} {f : β → List α} {qss : List (List α)} {l : List β}
    (h : List.Forall₂ (fun qs c => qs = f c) qss l) : qss.flatten = l.flatMap f := by
  induction h with
  | nil => rfl
  | cons h1 _ ih => rw [List.flatten_cons, List.flatMap_cons, h1, ih]

theorem gives_wholly {e : Env} {qss : List (List Posting)} {calls : List Call} (h : List.Forall₂ e.Gives qss calls) (hw : e.Wholly calls) :
    qss.flatten = e.selected calls := by
  unfold Env.selected
  induction h with
  | nil => rfl
  | @cons qs c qss calls h1 _ ih =>
    rw [List.flatten_cons, List.flatMap_cons, ih fun t f hx => hw t f (List.mem_cons_of_mem _ hx)]
    congr 1
    cases c with
    | normal t f =>
      rcases hw t f (by simp) with hx | hx
      · exact h1.2 hx
      · have h0 : e.selectedOf (.normal t f) = [] := by simp only [Env.selectedOf, hx, ite_self]
        rw [h0]
        exact List.perm_nil.1 (h0 ▸ h1.1)
    | periodic pt f => exact h1

theorem filed_wholly {e : Env} {xss : List (List Filed)} {calls : List Call} (h : List.Forall₂ e.FiledAs xss calls) (hw : e.Wholly calls) :
    xss.flatten = e.filed calls := by
  unfold Env.filed
  induction h with
  | nil => rfl
  | @cons qs c qss calls h1 _ ih =>
    rw [List.flatten_cons, List.flatMap_cons, ih fun t f hx => hw t f (List.mem_cons_of_mem _ hx)]
    congr 1
    cases c with
    | normal t f =>
      rcases hw t f (by simp) with hx | hx
      · exact h1.2 hx
      · have h0 : e.filedOf (.normal t f) = [] := by simp only [Env.filedOf, Env.selectedOf, hx, ite_self, List.filterMap_nil]
        rw [h0]
        exact List.perm_nil.1 (h0 ▸ h1.1)
    | periodic pt f => exact h1

section
variable [Unicode] {m m' : Machine} {e e' : Env} {o : Options} {args args' : List Str} {bytes bytes' : List UInt8} {path path' text text' : Str}

/-- Two runs of the balance command with the same display flags, whatever else may differ: the lines about a top-level account, and about those below it, are the same
if the same is selected there; with filters that select single postings, if these are all in one commodity. -/
theorem C120_runs (ho : ∀ l, (e.mapOrder l).Perm l) (ho' : ∀ l, (e'.mapOrder l).Perm l)
    (h : balanceCmd e o.showZero o.flatten o.collapse m.fs m.maxOpen bytes path = .ok text)
    (h' : balanceCmd e' o.showZero o.flatten o.collapse m'.fs m'.maxOpen bytes' path' = .ok text') :
    ∃ (ps ps' : List Posting) (ls ls' : List (List Str × Str)),
      ps.Perm (e.selected (delivered m.fs m.maxOpen bytes path)) ∧ ps'.Perm (e'.selected (delivered m'.fs m'.maxOpen bytes' path')) ∧
      m.runOn e o args bytes path .balance = ⟨balanceMixes [] ps ++ text, .exit 0⟩ ∧
      m'.runOn e' o args' bytes' path' .balance = ⟨balanceMixes [] ps' ++ text', .exit 0⟩ ∧
      BalanceLines o.showZero ps text ls ∧ BalanceLines o.showZero ps' text' ls' ∧
      ∀ x,
        (e.Wholly (delivered m.fs m.maxOpen bytes path) ∧ e'.Wholly (delivered m'.fs m'.maxOpen bytes' path') ∧
          below [x] (e.selected (delivered m.fs m.maxOpen bytes path)) = below [x] (e'.selected (delivered m'.fs m'.maxOpen bytes' path')) ∨
        (below [x] (e.selected (delivered m.fs m.maxOpen bytes path))).Perm (below [x] (e'.selected (delivered m'.fs m'.maxOpen bytes' path'))) ∧
          ∃ c, ∀ p ∈ below [x] (e.selected (delivered m.fs m.maxOpen bytes path)), ∀ a ∈ p.amount, a.commodity = c) →
        linesOf x ls = linesOf x ls' := by
  obtain ⟨qss, g1, g2, g3⟩ := C73_balance_output m e ho o args bytes path text h
  obtain ⟨qss', g1', g2', g3'⟩ := C73_balance_output m' e' ho' o args' bytes' path' text' h'
  have p1 : qss.flatten.Perm (e.selected (delivered m.fs m.maxOpen bytes path)) := flatten_perm_flatMap (g1.imp fun _ _ h => h.perm)
  have p1' : qss'.flatten.Perm (e'.selected (delivered m'.fs m'.maxOpen bytes' path')) := flatten_perm_flatMap (g1'.imp fun _ _ h => h.perm)
  obtain ⟨ls, ls', k1, k2, k3⟩ := C120_reports g3 g3'
  refine ⟨_, _, ls, ls', p1, p1', g2, g2', k1, k2, fun x hx => k3 x ?_ ?_⟩
  · rcases hx with ⟨w, w', hb⟩ | ⟨hb, _⟩
    · rw [gives_wholly g1 w, gives_wholly g1' w', hb]
    · exact ((p1.filter _).trans hb).trans (p1'.filter _).symm
  · intro cs hcs
    rcases hx with ⟨w, w', hb⟩ | ⟨hb, c, hc⟩
    · rw [gives_wholly g1 w, gives_wholly g1' w', below_head hcs, hb, ← below_head hcs]
    · have q : (below [x] qss.flatten).Perm (below [x] (e.selected (delivered m.fs m.maxOpen bytes path))) := p1.filter _
      have q' : (below [x] qss.flatten).Perm (below [x] qss'.flatten) := (q.trans hb).trans (p1'.filter _).symm
      have := tally_one (c := c) (q'.filter fun p => decide (cs <+: p.components)) fun p hp => hc p (q.mem_iff.1 (List.mem_of_mem_filter hp))
      rw [below_head hcs, below_head hcs qss'.flatten]
      exact congrArg Amount.commodity this

/-- A paragraph put anywhere into a journal leaves alone the lines of a balance report about a top-level account, and those below it, to which it posts nothing. -/
theorem C120_paragraph (ho : ∀ l, (e.mapOrder l).Perm l) {ps qs : List (List UInt8)} {p : List UInt8}
    (hps : ∀ q ∈ ps ++ p :: qs, Passage m.fs m.maxOpen path q) (hw : e.Wholly (delivered m.fs m.maxOpen (passages (ps ++ p :: qs)) path))
    (h : balanceCmd e o.showZero o.flatten o.collapse m.fs m.maxOpen (passages (ps ++ p :: qs)) path = .ok text) :
    ∃ text' ls ls', balanceCmd e o.showZero o.flatten o.collapse m.fs m.maxOpen (passages (ps ++ qs)) path = .ok text' ∧
      BalanceLines o.showZero (e.selected (delivered m.fs m.maxOpen (passages (ps ++ p :: qs)) path)) text ls ∧
      BalanceLines o.showZero (e.selected (delivered m.fs m.maxOpen (passages (ps ++ qs)) path)) text' ls' ∧
      ∀ x, below [x] (e.selected (delivered m.fs m.maxOpen p path)) = [] → linesOf x ls = linesOf x ls' := by
  obtain ⟨a1, a2⟩ := delivered_passages m.fs m.maxOpen path _ hps
  obtain ⟨b1, b2⟩ := delivered_passages m.fs m.maxOpen path (ps ++ qs) fun q hq => hps q (by
    rcases List.mem_append.1 hq with h | h
    · exact List.mem_append_left _ h
    · exact List.mem_append_right _ (List.mem_cons_of_mem _ h))
  simp only [List.flatMap_append, List.flatMap_cons] at a1 b1
  have hj : ∃ j, runParse m.fs m.maxOpen (passages (ps ++ p :: qs)) path e.balanceHandlers newJournal = .ok j := by
    unfold balanceCmd at h
    cases hj : runParse m.fs m.maxOpen (passages (ps ++ p :: qs)) path e.balanceHandlers newJournal with
    | error f => rw [hj] at h; cases h
    | ok j => exact ⟨j, rfl⟩
  have hj' : ∃ j, runParse m.fs m.maxOpen (passages (ps ++ qs)) path e.balanceHandlers newJournal = .ok j := by
    rw [C61_runs_iff e ho] at hj ⊢
    refine ⟨b2, ?_⟩
    have := hj.2
    rw [a1, ready_append, ready_append] at this
    rw [b1, ready_append]
    exact ⟨this.1, this.2.2⟩
  obtain ⟨j', hj'⟩ := hj'
  have h' : balanceCmd e o.showZero o.flatten o.collapse m.fs m.maxOpen (passages (ps ++ qs)) path = .ok (report (prepareBalance o.showZero j'.heap) o.flatten o.collapse) := by
    unfold balanceCmd
    rw [hj']
    rfl
  have hw' : e.Wholly (delivered m.fs m.maxOpen (passages (ps ++ qs)) path) := by
    intro t f ht
    refine hw t f ?_
    rw [a1]
    rw [b1] at ht
    rcases List.mem_append.1 ht with h1 | h1
    · exact List.mem_append_left _ h1
    · exact List.mem_append_right _ (List.mem_append_right _ h1)
  obtain ⟨qss, g1, -, g3⟩ := C73_balance_output m e ho o [] _ path text h
  obtain ⟨qss', g1', -, g3'⟩ := C73_balance_output m e ho o [] _ path _ h'
  rw [gives_wholly g1 hw] at g3
  rw [gives_wholly g1' hw'] at g3'
  obtain ⟨ls, ls', k1, k2, k3⟩ := C120_reports g3 g3'
  have hb : ∀ x, below [x] (e.selected (delivered m.fs m.maxOpen p path)) = [] →
      below [x] (e.selected (delivered m.fs m.maxOpen (passages (ps ++ p :: qs)) path)) = below [x] (e.selected (delivered m.fs m.maxOpen (passages (ps ++ qs)) path)) := by
    intro x hx
    rw [a1, b1]
    simp only [Env.selected, List.flatMap_append, below_append]
    rw [show below [x] (List.flatMap e.selectedOf (delivered m.fs m.maxOpen p path)) = [] from hx, List.nil_append]
  refine ⟨_, ls, ls', h', k1, k2, fun x hx => k3 x ?_ ?_⟩
  · rw [hb x hx]
  · intro cs hcs
    rw [below_head hcs, hb x hx, ← below_head hcs]

end

/-! ### C121 The figures of a category in a month of the budget -/

theorem under_iff {k : Str} {e : Filed} : e.Under [k] ↔ ∃ ds, e.category = some (k :: ds) := by
  unfold Filed.Under
  constructor
  · rintro ⟨ds, h, t, rfl⟩
    exact ⟨t, h⟩
  · rintro ⟨ds, h⟩
    exact ⟨k :: ds, h, ds, rfl⟩

theorem categoryLine_under (k : Str) (es : List Filed) : categoryLine k es = categoryLine k (filedUnder k es) := by
  have hw : ∀ ty, es.filter (fun e => e.type = ty ∧ e.Under [k]) = (filedUnder k es).filter fun e => e.type = ty ∧ e.Under [k] := by
    intro ty
    unfold filedUnder
    rw [List.filter_filter]
    apply List.filter_congr
    intro e _
    by_cases h : e.Under [k] <;> simp [h]
  have hc : es.filter (fun e => e.category = some [k]) = (filedUnder k es).filter fun e => e.category = some [k] := by
    unfold filedUnder
    rw [List.filter_filter]
    apply List.filter_congr
    intro e _
    by_cases h : e.category = some [k]
    · have : e.Under [k] := under_iff.2 ⟨[], h⟩
      simp [h, this]
    · simp [h]
  unfold categoryLine figures spent budgeted categoryCommodity
  rw [hw, hw, hc]

theorem incomeOf_income (es : List Filed) : incomeOf es = incomeOf (filedIncome es) := by
  unfold incomeOf earned filedIncome
  rw [List.filter_filter]
  simp

theorem names_iff {k : Str} {es : List Filed} : (∃ e ∈ es, ∃ ds, e.category = some (k :: ds)) ↔ filedUnder k es ≠ [] := by
  constructor
  · rintro ⟨e, he, h⟩ h0
    have : e ∈ filedUnder k es := List.mem_filter.2 ⟨he, by simpa using under_iff.2 h⟩
    rw [h0] at this
    cases this
  · intro hne
    obtain ⟨e, he⟩ := List.exists_mem_of_ne_nil _ hne
    exact ⟨e, List.mem_of_mem_filter he, under_iff.1 (by simpa using List.of_mem_filter he)⟩

attribute [local irreducible] summary

theorem budgetMonths_of {es : List Filed} {L : List Date} {ns : Date → List Str} {text : Str} (a1 : L.Nodup)
    (a2 : L.Pairwise fun a b => a.dayNumber ≤ b.dayNumber) (a3 : ∀ m, m ∈ L ↔ m.day = 1 ∧ inMonth m.year m.month es ≠ [])
    (a4 : ∀ m ∈ L, (ns m).Pairwise StrLt ∧ ∀ k, k ∈ ns m ↔ ∃ e ∈ inMonth m.year m.month es, ∃ ds, e.category = some (k :: ds))
    (a5 : text = L.flatMap fun m => summary m (incomeOf (inMonth m.year m.month es)) ++
      ((ns m).flatMap fun k => categoryLine k (inMonth m.year m.month es)) ++ str "\n") :
    BudgetMonths es text (L.map fun m => ⟨m, summary m (incomeOf (inMonth m.year m.month es)),
      (ns m).map fun k => (k, categoryLine k (inMonth m.year m.month es))⟩) := by
  refine ⟨?_, ?_, ?_, ?_, ?_⟩
  · rw [a5, List.flatMap_map]
    unfold MonthText.text
    simp only [List.flatMap_map]
  · rw [List.pairwise_map]; exact a2
  · rw [List.map_map]
    have : (MonthText.month ∘ fun m => (⟨m, summary m (incomeOf (inMonth m.year m.month es)),
      (ns m).map fun k => (k, categoryLine k (inMonth m.year m.month es))⟩ : MonthText)) = id := rfl
    rw [this, List.map_id]
    exact a1
  · intro d
    rw [← a3]
    constructor
    · rintro ⟨t, ht, rfl⟩
      obtain ⟨m, hm, rfl⟩ := List.mem_map.1 ht
      exact hm
    · intro hd
      exact ⟨_, List.mem_map.2 ⟨d, hd, rfl⟩, rfl⟩
  · intro t ht
    obtain ⟨m, hm, rfl⟩ := List.mem_map.1 ht
    obtain ⟨q1, q2⟩ := a4 m hm
    refine ⟨?_, fun k => ?_⟩
    · rw [List.map_map]
      have : (Prod.fst ∘ fun k => (k, categoryLine k (inMonth m.year m.month es))) = (id : Str → Str) := rfl
      rw [this, List.map_id]
      exact q1
    · rw [← q2]
      constructor
      · rintro ⟨l, hl⟩
        obtain ⟨k', hk, he⟩ := List.mem_map.1 hl
        cases he
        exact hk
      · intro hk
        exact ⟨_, List.mem_map.2 ⟨k, hk, rfl⟩⟩

/-- Two budget reports: a month in which the same is filed looks the same in both; so does the line of a category in a month in which the same is filed under it; so do the
summaries of a month with the same income. -/
theorem C121_reports {es es' : List Filed} {text text' : Str} (R : BudgetReport es text) (R' : BudgetReport es' text') :
    ∃ ms ms', BudgetMonths es text ms ∧ BudgetMonths es' text' ms' ∧ ∀ d,
      (inMonth d.year d.month es = inMonth d.year d.month es' → ∀ t, t.month = d → (t ∈ ms ↔ t ∈ ms')) ∧
      (∀ k, filedUnder k (inMonth d.year d.month es) = filedUnder k (inMonth d.year d.month es') →
        ∀ l, (∃ t ∈ ms, t.month = d ∧ (k, l) ∈ t.lines) ↔ ∃ t ∈ ms', t.month = d ∧ (k, l) ∈ t.lines) ∧
      (filedIncome (inMonth d.year d.month es) = filedIncome (inMonth d.year d.month es') →
        ∀ t ∈ ms, ∀ t' ∈ ms', t.month = d → t'.month = d → t.summary = t'.summary) := by
  obtain ⟨L, ns, a1, a2, a3, a4, a5⟩ := R
  obtain ⟨L', ns', b1, b2, b3, b4, b5⟩ := R'
  refine ⟨_, _, budgetMonths_of a1 a2 a3 a4 a5, budgetMonths_of b1 b2 b3 b4 b5, fun d => ⟨?_, ?_, ?_⟩⟩
  · intro hd t ht
    have key : ∀ {es es' : List Filed} {L L' : List Date} {ns ns' : Date → List Str}, inMonth d.year d.month es = inMonth d.year d.month es' →
        (∀ m, m ∈ L ↔ m.day = 1 ∧ inMonth m.year m.month es ≠ []) → (∀ m, m ∈ L' ↔ m.day = 1 ∧ inMonth m.year m.month es' ≠ []) →
        (∀ m ∈ L, (ns m).Pairwise StrLt ∧ ∀ k, k ∈ ns m ↔ ∃ e ∈ inMonth m.year m.month es, ∃ ds, e.category = some (k :: ds)) →
        (∀ m ∈ L', (ns' m).Pairwise StrLt ∧ ∀ k, k ∈ ns' m ↔ ∃ e ∈ inMonth m.year m.month es', ∃ ds, e.category = some (k :: ds)) →
        t ∈ (L.map fun m => (⟨m, summary m (incomeOf (inMonth m.year m.month es)), (ns m).map fun k => (k, categoryLine k (inMonth m.year m.month es))⟩ : MonthText)) →
        t ∈ (L'.map fun m => (⟨m, summary m (incomeOf (inMonth m.year m.month es')), (ns' m).map fun k => (k, categoryLine k (inMonth m.year m.month es'))⟩ : MonthText)) := by
      intro es es' L L' ns ns' hd a3 b3 a4 b4 h0
      obtain ⟨m, hm, rfl⟩ := List.mem_map.1 h0
      have : m = d := ht
      subst this
      have hm' : m ∈ L' := by
        rw [b3, ← hd]
        exact (a3 m).1 hm
      refine List.mem_map.2 ⟨m, hm', ?_⟩
      have hn : ns m = ns' m := by
        refine pairwise_unique StrLt.irrefl (fun _ _ _ => StrLt.trans) (a4 m hm).1 (b4 m hm').1 fun k => ?_
        rw [(a4 m hm).2, (b4 m hm').2, hd]
      rw [hd, hn]
    exact ⟨key hd a3 b3 a4 b4, key hd.symm b3 a3 b4 a4⟩
  · intro k hk l
    have key : ∀ {es es' : List Filed} {L L' : List Date} {ns ns' : Date → List Str}, filedUnder k (inMonth d.year d.month es) = filedUnder k (inMonth d.year d.month es') →
        (∀ m, m ∈ L ↔ m.day = 1 ∧ inMonth m.year m.month es ≠ []) → (∀ m, m ∈ L' ↔ m.day = 1 ∧ inMonth m.year m.month es' ≠ []) →
        (∀ m ∈ L, (ns m).Pairwise StrLt ∧ ∀ k, k ∈ ns m ↔ ∃ e ∈ inMonth m.year m.month es, ∃ ds, e.category = some (k :: ds)) →
        (∀ m ∈ L', (ns' m).Pairwise StrLt ∧ ∀ k, k ∈ ns' m ↔ ∃ e ∈ inMonth m.year m.month es', ∃ ds, e.category = some (k :: ds)) →
        (∃ t ∈ (L.map fun m => (⟨m, summary m (incomeOf (inMonth m.year m.month es)), (ns m).map fun k => (k, categoryLine k (inMonth m.year m.month es))⟩ : MonthText)),
          t.month = d ∧ (k, l) ∈ t.lines) →
        ∃ t ∈ (L'.map fun m => (⟨m, summary m (incomeOf (inMonth m.year m.month es')), (ns' m).map fun k => (k, categoryLine k (inMonth m.year m.month es'))⟩ : MonthText)),
          t.month = d ∧ (k, l) ∈ t.lines := by
      rintro es es' L L' ns ns' hk a3 b3 a4 b4 ⟨t, ht, rfl, hl⟩
      obtain ⟨m, hm, rfl⟩ := List.mem_map.1 ht
      obtain ⟨k', hk', he⟩ := List.mem_map.1 hl
      obtain ⟨rfl, rfl⟩ := Prod.mk.inj he
      have h0 := names_iff.1 (((a4 m hm).2 k').1 hk')
      simp only at hk
      rw [hk] at h0
      have hm' : m ∈ L' := by
        rw [b3]
        refine ⟨((a3 m).1 hm).1, fun hnil => h0 ?_⟩
        rw [hnil]; rfl
      refine ⟨_, List.mem_map.2 ⟨m, hm', rfl⟩, rfl, List.mem_map.2 ⟨k', ((b4 m hm').2 k').2 (names_iff.2 h0), ?_⟩⟩
      rw [categoryLine_under k' (inMonth m.year m.month es), hk, ← categoryLine_under]
    exact ⟨key hk a3 b3 a4 b4, key hk.symm b3 a3 b4 a4⟩
  · intro hi t ht t' ht' h1 h2
    obtain ⟨m, hm, rfl⟩ := List.mem_map.1 ht
    obtain ⟨m', hm', rfl⟩ := List.mem_map.1 ht'
    simp only at h1 h2
    subst h1
    subst h2
    show summary _ _ = summary _ _
    rw [incomeOf_income (inMonth m'.year m'.month es), hi, ← incomeOf_income]

section
variable [Unicode] {m m' : Machine} {e e' : Env} {o o' : Options} {args args' : List Str} {bytes bytes' : List UInt8} {path path' text text' : Str}

/-- Two runs of the budget command, whatever differs between them, with filters that select transactions as a whole or not at all (or none): the same for months, categories and
income of what is filed. -/
theorem C121_runs (hs : SortsMonths m.sortDates) (hs' : SortsMonths m'.sortDates) (ho : ∀ l, (e.mapOrder l).Perm l) (ho' : ∀ l, (e'.mapOrder l).Perm l)
    (hw : e.Wholly (delivered m.fs m.maxOpen bytes path)) (hw' : e'.Wholly (delivered m'.fs m'.maxOpen bytes' path'))
    (h : budgetCmd e m.sortDates m.fs m.maxOpen bytes path = .ok text) (h' : budgetCmd e' m'.sortDates m'.fs m'.maxOpen bytes' path' = .ok text') :
    let es := e.filed (delivered m.fs m.maxOpen bytes path)
    let es' := e'.filed (delivered m'.fs m'.maxOpen bytes' path')
    m.runOn e o args bytes path .budget = ⟨budgetMixes [] es ++ text, .exit 0⟩ ∧
    m'.runOn e' o' args' bytes' path' .budget = ⟨budgetMixes [] es' ++ text', .exit 0⟩ ∧
    ∃ ms ms', BudgetMonths es text ms ∧ BudgetMonths es' text' ms' ∧ ∀ d,
      (inMonth d.year d.month es = inMonth d.year d.month es' → ∀ t, t.month = d → (t ∈ ms ↔ t ∈ ms')) ∧
      (∀ k, filedUnder k (inMonth d.year d.month es) = filedUnder k (inMonth d.year d.month es') →
        ∀ l, (∃ t ∈ ms, t.month = d ∧ (k, l) ∈ t.lines) ↔ ∃ t ∈ ms', t.month = d ∧ (k, l) ∈ t.lines) ∧
      (filedIncome (inMonth d.year d.month es) = filedIncome (inMonth d.year d.month es') →
        ∀ t ∈ ms, ∀ t' ∈ ms', t.month = d → t'.month = d → t.summary = t'.summary) := by
  intro es es'
  obtain ⟨xss, g1, g2, g3⟩ := C75_budget_output m hs e ho o args bytes path text h
  obtain ⟨xss', g1', g2', g3'⟩ := C75_budget_output m' hs' e' ho' o' args' bytes' path' text' h'
  rw [filed_wholly g1 hw] at g2 g3
  rw [filed_wholly g1' hw'] at g2' g3'
  exact ⟨g2, g2', C121_reports g3 g3'⟩

theorem budgetCmd_ok_iff (ho : ∀ l, (e.mapOrder l).Perm l) (hd : e.dateError = none) (sort : List Date → List Date) (fs : FileSystem) (n : Nat) :
    (∃ text, budgetCmd e sort fs n bytes path = .ok text) ↔ rejection fs n bytes path = none ∧ ¬ Command.budget.Lacks e (delivered fs n bytes path) := by
  have hb := budget_ready e ho hd (delivered fs n bytes path) [] [] empty_holds (filed_days e fs n bytes path)
  unfold budgetCmd
  constructor
  · rintro ⟨text, h⟩
    cases hj : runParse fs n bytes path e.budgetHandlers [] with
    | error f => rw [hj] at h; cases h
    | ok j =>
      obtain ⟨h1, h2⟩ := runParse_replay.1 hj
      exact ⟨h1, hb.1 (by rw [h2])⟩
  · rintro ⟨h1, h2⟩
    have : runParse fs n bytes path e.budgetHandlers [] = .ok (e.budgetHandlers.replay (delivered fs n bytes path) []).1 :=
      runParse_replay.2 ⟨h1, Prod.ext rfl (hb.2 h2)⟩
    rw [this]
    exact ⟨_, rfl⟩

/-- A paragraph put anywhere into a journal leaves alone the months of a budget in which it files nothing, and, in other months, the lines of the categories under which it
files nothing, and the summary if it has no income. -/
theorem C121_paragraph (hs : SortsMonths m.sortDates) (ho : ∀ l, (e.mapOrder l).Perm l) (hd : e.dateError = none) {ps qs : List (List UInt8)} {p : List UInt8}
    (hps : ∀ q ∈ ps ++ p :: qs, Passage m.fs m.maxOpen path q) (hw : e.Wholly (delivered m.fs m.maxOpen (passages (ps ++ p :: qs)) path))
    (h : budgetCmd e m.sortDates m.fs m.maxOpen (passages (ps ++ p :: qs)) path = .ok text) :
    let new := e.filed (delivered m.fs m.maxOpen p path)
    ∃ text' ms ms', budgetCmd e m.sortDates m.fs m.maxOpen (passages (ps ++ qs)) path = .ok text' ∧
      BudgetMonths (e.filed (delivered m.fs m.maxOpen (passages (ps ++ p :: qs)) path)) text ms ∧
      BudgetMonths (e.filed (delivered m.fs m.maxOpen (passages (ps ++ qs)) path)) text' ms' ∧ ∀ d,
      (inMonth d.year d.month new = [] → ∀ t, t.month = d → (t ∈ ms ↔ t ∈ ms')) ∧
      (∀ k, filedUnder k (inMonth d.year d.month new) = [] →
        ∀ l, (∃ t ∈ ms, t.month = d ∧ (k, l) ∈ t.lines) ↔ ∃ t ∈ ms', t.month = d ∧ (k, l) ∈ t.lines) ∧
      (filedIncome (inMonth d.year d.month new) = [] →
        ∀ t ∈ ms, ∀ t' ∈ ms', t.month = d → t'.month = d → t.summary = t'.summary) := by
  intro new
  obtain ⟨a1, a2⟩ := delivered_passages m.fs m.maxOpen path _ hps
  obtain ⟨b1, b2⟩ := delivered_passages m.fs m.maxOpen path (ps ++ qs) fun q hq => hps q (by
    rcases List.mem_append.1 hq with h | h
    · exact List.mem_append_left _ h
    · exact List.mem_append_right _ (List.mem_cons_of_mem _ h))
  simp only [List.flatMap_append, List.flatMap_cons] at a1 b1
  have f1 : e.filed (delivered m.fs m.maxOpen (passages (ps ++ p :: qs)) path) =
      e.filed (ps.flatMap fun p => delivered m.fs m.maxOpen p path) ++ (new ++ e.filed (qs.flatMap fun p => delivered m.fs m.maxOpen p path)) := by
    rw [a1]
    simp only [Env.filed, List.flatMap_append, new]
  have f2 : e.filed (delivered m.fs m.maxOpen (passages (ps ++ qs)) path) =
      e.filed (ps.flatMap fun p => delivered m.fs m.maxOpen p path) ++ e.filed (qs.flatMap fun p => delivered m.fs m.maxOpen p path) := by
    rw [b1]
    simp only [Env.filed, List.flatMap_append]
  obtain ⟨text', h'⟩ : ∃ text', budgetCmd e m.sortDates m.fs m.maxOpen (passages (ps ++ qs)) path = .ok text' := by
    rw [budgetCmd_ok_iff ho hd]
    refine ⟨b2, ?_⟩
    have := ((budgetCmd_ok_iff ho hd _ _ _).1 ⟨_, h⟩).2
    simp only [Command.Lacks] at this ⊢
    rintro ⟨x, hx, hf⟩
    refine this ⟨x, ?_, hf⟩
    rw [f1]
    rw [f2] at hx
    rcases List.mem_append.1 hx with h1 | h1
    · exact List.mem_append_left _ h1
    · exact List.mem_append_right _ (List.mem_append_right _ h1)
  have hw' : e.Wholly (delivered m.fs m.maxOpen (passages (ps ++ qs)) path) := by
    intro t f ht
    refine hw t f ?_
    rw [a1]
    rw [b1] at ht
    rcases List.mem_append.1 ht with h1 | h1
    · exact List.mem_append_left _ h1
    · exact List.mem_append_right _ (List.mem_append_right _ h1)
  obtain ⟨-, -, ms, ms', k1, k2, k3⟩ := C121_runs (o := {}) (o' := {}) (args := []) (args' := []) hs hs ho ho hw hw' h h'
  refine ⟨text', ms, ms', h', k1, k2, fun d => ⟨fun hn => (k3 d).1 ?_, fun k hn => (k3 d).2.1 k ?_, fun hn => (k3 d).2.2 ?_⟩⟩
  · rw [f1, f2]
    unfold inMonth at hn ⊢
    rw [List.filter_append, List.filter_append, List.filter_append, hn, List.nil_append]
  · rw [f1, f2]
    unfold filedUnder inMonth at hn ⊢
    rw [List.filter_append, List.filter_append, List.filter_append, List.filter_append, List.filter_append, hn, List.nil_append, List.filter_append]
  · rw [f1, f2]
    unfold filedIncome inMonth at hn ⊢
    rw [List.filter_append, List.filter_append, List.filter_append, List.filter_append, List.filter_append, hn, List.nil_append, List.filter_append]

end

/-- A paragraph about Food and Cash, put between two others: the lines of Assets stay as they are. -/
example :
    letI := asciiUnicode
    let p := utf8 "2020-01-01 x\n  Assets:A  $1\n  Cash\n"
    let q := utf8 "2020-01-02 y\n  Food  $3\n  Cash\n"
    let r := utf8 "2020-01-03 z\n  Assets:B  EUR2\n  Food\n"
    let m := shelfMachine
    let e := m.env {} []
    let run (ps : List (List UInt8)) := (m.runOn e {} [] (passages ps) (str "f") .balance).stdout
    (∀ x ∈ [p, q, r], Passage m.fs m.maxOpen (str "f") x) ∧ e.filters = [] ∧
    below [str "Assets"] (e.selected (delivered m.fs m.maxOpen q (str "f"))) = [] ∧
    str "$3.00  Assets\n               $1.00    A\n             EUR2.00    B\n" <:+: run [p, q, r] ∧
    str "$3.00  Assets\n               $1.00    A\n             EUR2.00    B\n" <:+: run [p, r] ∧
    str "$-4.00  Cash\n" <:+: run [p, q, r] ∧ str "$-1.00  Cash\n" <:+: run [p, r] := by
  unfold Passage
  decide +kernel

/-- A budget of two months; a paragraph that files spending on Rent in February changes neither January nor the line of Food in February. -/
example :
    letI := asciiUnicode
    let p := utf8 "2020-01-01 x\n  Expenses:Food  $1\n  Cash\n"
    let q := utf8 "2020-02-02 y\n  Expenses:Rent  $3\n  Cash\n"
    let r := utf8 "2020-02-03 z\n  Expenses:Food  $2\n  Cash\n"
    let m := shelfMachine
    let e := m.env {} []
    let new := e.filed (delivered m.fs m.maxOpen q (str "f"))
    (∀ x ∈ [p, q, r], Passage m.fs m.maxOpen (str "f") x) ∧ e.filters = [] ∧ e.dateError = none ∧
    (∃ t ∈ (budgetCmd e m.sortDates m.fs m.maxOpen (passages [p, q, r]) (str "f")).toOption, t ≠ []) ∧
    inMonth 2020 1 new = [] ∧ inMonth 2020 2 new ≠ [] ∧ filedUnder (str "Food") (inMonth 2020 2 new) = [] ∧
    filedUnder (str "Rent") (inMonth 2020 2 new) ≠ [] := by
  unfold Passage
  decide +kernel

end Gledger
