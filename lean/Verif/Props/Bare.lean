/-
C124: reports depend on nothing but what they are about.
-/
import Verif.Spec.Bare
import Verif.Props.Local

namespace Gledger

set_option maxRecDepth 100000

/-! ### Postings that agree in account and amount -/

section
variable {g : Posting → Posting} (hp : ∀ p, (g p).accountPath = p.accountPath) (ha : ∀ p, (g p).amount = p.amount)
include hp

theorem components_image (p : Posting) : (g p).components = p.components := by unfold Posting.components; rw [hp]

theorem below_image (cs : List Str) (ps : List Posting) : below cs (ps.map g) = (below cs ps).map g := by
  unfold below
  rw [List.filter_map]
  congr 1
  apply List.filter_congr
  intro p _
  simp only [Function.comp_apply, components_image hp]

include ha
omit hp in
theorem values_image (ps : List Posting) : (ps.map g).map Posting.value = ps.map Posting.value := by
  rw [List.map_map]
  apply List.map_congr_left
  intro p _
  simp only [Function.comp_apply, Posting.value, ha]

omit hp in
theorem firstCommodity_image (ps : List Posting) : firstCommodity (ps.map g) = firstCommodity ps := by
  unfold firstCommodity writtenCommodities
  rw [List.filterMap_map]
  congr 3
  funext p
  simp only [Function.comp_apply, ha]

omit hp in
theorem tally_image (ps : List Posting) : tally (ps.map g) = tally ps := by
  unfold tally
  rw [firstCommodity_image ha, values_image ha]

theorem tally_below_image (cs : List Str) (ps : List Posting) : tally (below cs (ps.map g)) = tally (below cs ps) := by
  rw [below_image hp, tally_image ha]

theorem shown_image (showZero : Bool) (ps : List Posting) (cs : List Str) : Shown showZero (ps.map g) cs ↔ Shown showZero ps cs := by
  unfold Shown valueOf
  simp only [List.mem_map, exists_exists_and_eq_and, components_image hp, below_image hp, values_image ha]

theorem balanceReport_image (showZero flatten collapse : Bool) (ps : List Posting) (text : Str) :
    BalanceReport showZero flatten collapse (ps.map g) text ↔ BalanceReport showZero flatten collapse ps text := by
  have hs : Shown showZero (ps.map g) = Shown showZero ps := by
    funext cs
    exact propext (shown_image hp ha showZero ps cs)
  unfold BalanceReport
  simp only [hs, tally_below_image hp ha, tally_image ha]

theorem balanceMixes_image (before ps : List Posting) : balanceMixes (before.map g) (ps.map g) = balanceMixes before ps := by
  induction ps generalizing before with
  | nil => rfl
  | cons p ps ih =>
    rw [List.map_cons, balanceMixes, balanceMixes]
    have h1 : before.map g ++ [g p] = (before ++ [p]).map g := by simp
    rw [h1, ih]
    congr 1
    unfold balanceMix
    rw [ha, h1, components_image hp]
    simp only [below_image hp, firstCommodity_image ha]

/-! ### The same for what is filed in a budget -/

/-- The posting replaced. -/
def onFiled (g : Posting → Posting) (e : Filed) : Filed := { e with posting := g e.posting }

omit ha in
theorem category_image (e : Filed) : (onFiled g e).category = e.category := by
  unfold Filed.category onFiled
  simp only [hp, components_image hp]

omit ha in
theorem under_image (cs : List Str) (e : Filed) : (onFiled g e).Under cs ↔ e.Under cs := by
  unfold Filed.Under
  rw [category_image hp]

omit hp ha in
theorem inMonth_image (y : Int) (m : Nat) (es : List Filed) : inMonth y m (es.map (onFiled g)) = (inMonth y m es).map (onFiled g) := by
  unfold inMonth
  rw [List.filter_map]
  rfl

omit hp in
theorem worth_image (es : List Filed) : worth (es.map (onFiled g)) = worth es := by
  unfold worth
  rw [List.map_map]
  congr 1
  apply List.map_congr_left
  intro e _
  simp only [Function.comp_apply, onFiled, Posting.value, ha]

omit hp ha in
theorem filter_image {P : Filed → Prop} [DecidablePred P] (h : ∀ e, P (onFiled g e) ↔ P e) (es : List Filed) :
    (es.map (onFiled g)).filter (fun e => P e) = (es.filter fun e => P e).map (onFiled g) := by
  rw [List.filter_map]
  congr 1
  apply List.filter_congr
  intro e _
  simp only [Function.comp_apply, h]

omit hp ha in
theorem postings_image (es : List Filed) : (es.map (onFiled g)).map Filed.posting = (es.map Filed.posting).map g := by
  rw [List.map_map, List.map_map]
  rfl

omit hp in
theorem firstFiled_image {P : Filed → Prop} [DecidablePred P] (h : ∀ e, P (onFiled g e) ↔ P e) (es : List Filed) :
    firstCommodity (((es.map (onFiled g)).filter fun e => P e).map Filed.posting) = firstCommodity ((es.filter fun e => P e).map Filed.posting) := by
  rw [filter_image h, postings_image, firstCommodity_image ha]

omit hp in
theorem incomeOf_image (es : List Filed) : incomeOf (es.map (onFiled g)) = incomeOf es := by
  unfold incomeOf earned
  rw [firstFiled_image ha (fun _ => Iff.rfl), filter_image (P := fun e => e.type = .income) (fun _ => Iff.rfl), worth_image ha]

theorem categoryCommodity_image (cs : List Str) (es : List Filed) : categoryCommodity cs (es.map (onFiled g)) = categoryCommodity cs es := by
  unfold categoryCommodity
  rw [filter_image (P := fun e => e.category = some cs) (fun e => by rw [category_image hp]), List.getLast?_map]
  cases (es.filter fun e => e.category = some cs).getLast? with
  | none => rfl
  | some e => simp only [Option.map_some, Option.bind_some, onFiled, ha]

theorem categoryLine_image (k : Str) (es : List Filed) : categoryLine k (es.map (onFiled g)) = categoryLine k es := by
  unfold categoryLine figures budgeted spent
  rw [categoryCommodity_image hp ha, filter_image (P := fun e => e.type = .envelope ∧ e.Under [k]) (fun e => and_congr Iff.rfl (under_image hp _ e)),
    filter_image (P := fun e => e.type = .expense ∧ e.Under [k]) (fun e => and_congr Iff.rfl (under_image hp _ e)), worth_image ha, worth_image ha]

theorem budgetReport_image (es : List Filed) (text : Str) : BudgetReport (es.map (onFiled g)) text ↔ BudgetReport es text := by
  unfold BudgetReport
  simp only [inMonth_image, ne_eq, List.map_eq_nil_iff, List.mem_map, exists_exists_and_eq_and, category_image hp, incomeOf_image ha, categoryLine_image hp ha]

theorem budgetMixes_image (before es : List Filed) : budgetMixes (before.map (onFiled g)) (es.map (onFiled g)) = budgetMixes before es := by
  induction es generalizing before with
  | nil => rfl
  | cons e es ih =>
    rw [List.map_cons, budgetMixes, budgetMixes]
    have h1 : ∀ b : List Filed, b.map (onFiled g) ++ [onFiled g e] = (b ++ [e]).map (onFiled g) := fun b => by simp
    rw [h1, ih]
    congr 1
    have h2 : (onFiled g e).date = e.date := rfl
    rw [h2, inMonth_image]
    unfold budgetMix
    have h3 : (onFiled g e).posting.amount = e.posting.amount := ha _
    have h4 : (onFiled g e).type = e.type := rfl
    have i1 : ∀ b, incomeCommodity (b.map (onFiled g)) = incomeCommodity b := fun b => firstFiled_image ha (fun _ => Iff.rfl) b
    have i2 : ∀ b, poolCommodity (b.map (onFiled g)) = poolCommodity b := fun b =>
      firstFiled_image ha (P := fun e => e.type = .income ∨ e.category ≠ none) (fun e => by rw [category_image hp]; rfl) b
    have i3 : ∀ b, spendingCommodity (b.map (onFiled g)) = spendingCommodity b := fun b =>
      firstFiled_image ha (P := fun e => e.category ≠ none) (fun e => by rw [category_image hp]) b
    rw [h3, h4, category_image hp, h1]
    simp only [i1, i2, i3, categoryCommodity_image hp ha]

end

/-! ### There is only one report of a list of postings -/

theorem balanceReport_unique {showZero flatten collapse : Bool} {ps : List Posting} {text text' : Str} (R : BalanceReport showZero flatten collapse ps text)
    (R' : BalanceReport showZero flatten collapse ps text') : text = text' := by
  have uniq : ∀ {L L' : List (List Str)}, L.Pairwise PathLt → L'.Pairwise PathLt → (∀ cs, cs ∈ L ↔ cs ∈ L') → L = L' := fun h1 h2 h3 =>
    pairwise_unique PathLt.irrefl (fun _ _ _ => PathLt.trans) h1 h2 h3
  unfold BalanceReport at R R'
  cases flatten with
  | true =>
    rw [if_pos rfl] at R R'
    obtain ⟨L, a1, a2, rfl⟩ := R
    obtain ⟨L', b1, b2, rfl⟩ := R'
    rw [uniq a1 b1 fun cs => (a2 cs).trans (b2 cs).symm]
  | false =>
    rw [if_neg (by simp)] at R R'
    cases collapse with
    | false =>
      rw [if_neg (by simp)] at R R'
      obtain ⟨L, a1, a2, rfl⟩ := R
      obtain ⟨L', b1, b2, rfl⟩ := R'
      rw [uniq a1 b1 fun cs => (a2 cs).trans (b2 cs).symm]
    | true =>
      rw [if_pos rfl] at R R'
      obtain ⟨L, one, a1, a0, a2, rfl⟩ := R
      obtain ⟨L', one', b1, b0, b2, rfl⟩ := R'
      have h1 : ∀ cs, Shown showZero ps cs → one cs = one' cs := by
        intro cs hs
        have := (a0 cs hs).trans (b0 cs hs).symm
        cases h1 : one cs <;> cases h2 : one' cs <;> simp_all
      have hL : L = L' := uniq a1 b1 fun cs => (a2 cs).trans (Iff.trans ⟨fun ⟨x, y, z⟩ => ⟨x, y, by rw [← h1 cs x]; exact z⟩,
        fun ⟨x, y, z⟩ => ⟨x, y, by rw [h1 cs x]; exact z⟩⟩ (b2 cs).symm)
      subst hL
      congr 2
      apply List.map_congr_left
      intro cs hcs
      have hs := ((a2 cs).1 hcs).1
      have hst : stopsBy one cs = stopsBy one' cs := stopsBy_congr fun i _ => h1 _ (hs.up (List.take_prefix i cs))
      simp only [levelBy, chainBy, hst]

theorem budgetReport_unique {es : List Filed} (hr : ∀ e ∈ es, e.date.Real) {text text' : Str} (R : BudgetReport es text) (R' : BudgetReport es text') : text = text' := by
  obtain ⟨ms, ns, n1, o1, c1, k1, e1⟩ := R
  obtain ⟨ms', ns', n2, o2, c2, k2, e2⟩ := R'
  have real : ∀ m : Date, m.day = 1 ∧ inMonth m.year m.month es ≠ [] → m.Real := by
    rintro m ⟨q1, q2⟩
    obtain ⟨x, hx⟩ := List.exists_mem_of_ne_nil _ q2
    simp only [inMonth, List.mem_filter, decide_eq_true_eq] at hx
    have hR := hr x hx.1
    unfold Date.Real at hR ⊢
    rw [← hx.2.1, ← hx.2.2, q1]
    omega
  have strict : ∀ {l : List Date}, l.Nodup → l.Pairwise (fun a b => a.dayNumber ≤ b.dayNumber) → (∀ m ∈ l, m.Real) →
      l.Pairwise fun a b => a.dayNumber < b.dayNumber := by
    intro l n o r
    refine ((n.and o).imp_of_mem ?_)
    rintro a b ha hb ⟨h1, h2⟩
    rcases Int.lt_or_eq_of_le h2 with h3 | h3
    · exact h3
    · exact absurd (dayNumber_inj (r a ha) (r b hb) h3) h1
  have hms : ms = ms' := pairwise_unique (r := fun a b : Date => a.dayNumber < b.dayNumber) (fun a => Int.lt_irrefl _) (fun _ _ _ => Int.lt_trans)
    (strict n1 o1 fun m hm => real m ((c1 m).1 hm)) (strict n2 o2 fun m hm => real m ((c2 m).1 hm)) fun m => (c1 m).trans (c2 m).symm
  subst hms
  have hns : ∀ m ∈ ms, ns m = ns' m := fun m hm =>
    pairwise_unique StrLt.irrefl (fun _ _ _ => StrLt.trans) (k1 m hm).1 (k2 m hm).1 fun k => ((k1 m hm).2 k).trans ((k2 m hm).2 k).symm
  rw [e1, e2]
  exact flatMap_congr_mem fun m hm => by rw [hns m hm]

/-! ### What is looked at -/

theorem bare_path (l : Looks) (p : Posting) : (p.bare l).accountPath = p.accountPath := rfl
theorem bare_amount (l : Looks) (p : Posting) : (p.bare l).amount = p.amount := rfl

section
variable {l : Looks} {fs : List Filter} (hl : l.Suffices fs .balance)
include hl

theorem wide_bare {f : Filter} (hf : f ∈ fs) (t : Transaction) : f.Wide (t.bare l) ↔ f.Wide t := by
  obtain ⟨h1, h2⟩ := hl f hf
  unfold Filter.Wide Transaction.bare
  refine or_congr (and_congr_right fun h => ?_) (and_congr_right fun h => ?_)
  · simp only [h1 h, if_true]
  · simp only [h2 h, if_true]

theorem takes_bare {f : Filter} (hf : f ∈ fs) (p : Posting) : f.Takes (p.bare l) ↔ f.Takes p := by
  obtain ⟨h1, h2⟩ := hl f hf
  unfold Filter.Takes Posting.bare
  refine or_congr Iff.rfl (and_congr_right fun h => ?_)
  simp only [h2 h, if_true]

theorem whole_bare (t : Transaction) : WholeSelected fs (t.bare l) ↔ WholeSelected fs t := by
  unfold WholeSelected
  refine or_congr Iff.rfl (exists_congr fun f => and_congr_right fun hf => wide_bare hl hf t)

theorem selection_bare (t : Transaction) : selection fs (t.bare l) = (selection fs t).map (Posting.bare l) := by
  unfold selection
  by_cases h : WholeSelected fs t
  · rw [if_pos h, if_pos ((whole_bare hl t).2 h)]
    rfl
  · rw [if_neg h, if_neg (fun h' => h ((whole_bare hl t).1 h'))]
    show List.filter _ (t.postings.map (Posting.bare l)) = _
    rw [List.filter_map]
    congr 1
    apply List.filter_congr
    intro p _
    simp only [Function.comp_apply]
    congr 1
    exact propext (exists_congr fun f => and_congr_right fun hf => takes_bare hl hf p)

end

theorem range_bare (e : Env) (l : Looks) (t : Transaction) : e.withinDateRange (t.bare l) = e.withinDateRange t := rfl

section
variable {l : Looks} {e : Env} (hl : l.Suffices e.filters .balance)
include hl

theorem selectedOf_bare (c : Call) : e.selectedOf (c.bare l) = (e.selectedOf c).map (Posting.bare l) := by
  cases c with
  | normal t f =>
    simp only [Call.bare, Env.selectedOf, range_bare, selection_bare hl]
    split <;> rfl
  | periodic pt f => rfl

theorem selected_bare (calls : List Call) : e.selected (calls.map (Call.bare l)) = (e.selected calls).map (Posting.bare l) := by
  unfold Env.selected
  rw [List.flatMap_map, List.map_flatMap]
  congr 1
  funext c
  exact selectedOf_bare hl c

theorem filedOf_bare (c : Call) : e.filedOf (c.bare l) = (e.filedOf c).map (onFiled (Posting.bare l)) := by
  cases c with
  | normal t f =>
    have := selectedOf_bare hl (.normal t f)
    simp only [Call.bare] at this
    simp only [Call.bare, Env.filedOf, this, List.filterMap_map, List.map_filterMap]
    congr 1
    funext p
    simp only [Function.comp_apply, components_image (bare_path l)]
    split
    · rfl
    · split <;> rfl
  | periodic pt f =>
    simp only [Call.bare, Env.filedOf, Transaction.bare]
    split
    · rw [List.map_map, List.map_map]
      rfl
    · rfl

theorem filed_bare (calls : List Call) : e.filed (calls.map (Call.bare l)) = (e.filed calls).map (onFiled (Posting.bare l)) := by
  unfold Env.filed
  rw [List.flatMap_map, List.map_flatMap]
  congr 1
  funext c
  exact filedOf_bare hl c

theorem wholly_bare (calls : List Call) : e.Wholly (calls.map (Call.bare l)) ↔ e.Wholly calls := by
  unfold Env.Wholly
  constructor
  · intro h t f ht
    have := h (t.bare l) (if l.files then f else []) (List.mem_map.2 ⟨_, ht, rfl⟩)
    rw [whole_bare hl, selection_bare hl, List.map_eq_nil_iff] at this
    exact this
  · intro h t f ht
    obtain ⟨c, hc, he⟩ := List.mem_map.1 ht
    cases c with
    | normal t' f' =>
      cases he
      rw [whole_bare hl, selection_bare hl, List.map_eq_nil_iff]
      exact h t' f' hc
    | periodic pt f' => cases he

end

theorem normals_bare (l : Looks) (calls : List Call) :
    normals (calls.map (Call.bare l)) = (normals calls).map fun tf => (tf.1.bare l, if l.files then tf.2 else []) := by
  unfold normals
  rw [List.filterMap_map, List.map_filterMap]
  congr 1
  funext c
  cases c <;> rfl

theorem ready_bare {l : Looks} {e : Env} (hl : l.Suffices e.filters .balance) (calls : List Call) : e.Ready (calls.map (Call.bare l)) ↔ e.Ready calls := by
  unfold Env.Ready
  rw [normals_bare, selected_bare hl]
  simp only [List.mem_map, forall_exists_index, and_imp, forall_apply_eq_imp_iff₂, range_bare, bare_amount]

/-! ### C124 -/

theorem replay_bare {σ : Type} {H : Handlers σ} {l : Looks} {calls : List Call} (h : ∀ c ∈ calls, ∀ u, H.call u (c.bare l) = H.call u c) (u : σ) :
    H.replay (calls.map (Call.bare l)) u = H.replay calls u := by
  induction calls generalizing u with
  | nil => rfl
  | cons c cs ih =>
    rw [List.map_cons, Handlers.replay, Handlers.replay, h c (by simp) u]
    obtain ⟨v, _ | g⟩ := H.call u c
    · exact ih (fun c' hc => h c' (by simp [hc])) v
    · rfl

section
variable [Unicode] {m m' : Machine} {e : Env} {o : Options} {args args' : List Str} {fs fs' : FileSystem} {n n' : Nat} {bytes bytes' : List UInt8} {path path' text : Str} {l : Looks}

theorem runParse_bare {σ : Type} {H : Handlers σ} {u v : σ} (hr : rejection fs' n' bytes' path' = none)
    (hb : (delivered fs n bytes path).map (Call.bare l) = (delivered fs' n' bytes' path').map (Call.bare l))
    (h : ∀ c ∈ delivered fs n bytes path, ∀ u, H.call u (c.bare l) = H.call u c) (h' : ∀ c ∈ delivered fs' n' bytes' path', ∀ u, H.call u (c.bare l) = H.call u c)
    (ht : runParse fs n bytes path H u = .ok v) : runParse fs' n' bytes' path' H u = .ok v := by
  rw [runParse_replay] at ht ⊢
  refine ⟨hr, ?_⟩
  rw [← replay_bare h', ← hb, replay_bare h]
  exact ht.2

/-- The accounts command looks at dates and accounts only. -/
theorem C124_accounts (order : List Str → List Str) (hr : rejection fs' n' bytes' path' = none)
    (hb : (delivered fs n bytes path).map (Call.bare l) = (delivered fs' n' bytes' path').map (Call.bare l))
    (ht : accountsCmd e order fs n bytes path = .ok text) : accountsCmd e order fs' n' bytes' path' = .ok text := by
  have step : ∀ (c : Call) (u : List Str), e.accountsHandlers.call u (c.bare l) = e.accountsHandlers.call u c := by
    intro c u
    cases c with
    | periodic pt f => rfl
    | normal t f =>
      show e.dateChecked accountsHandler u (t.bare l) _ = e.dateChecked accountsHandler u t f
      unfold Env.dateChecked accountsHandler
      rw [range_bare, show (t.bare l).postings = t.postings.map (Posting.bare l) from rfl, List.foldl_map]
      rfl
  unfold accountsCmd at ht ⊢
  cases hj : runParse fs n bytes path e.accountsHandlers [] with
  | error f => rw [hj] at ht; cases ht
  | ok s => rw [runParse_bare hr hb (fun c _ => step c) (fun c _ => step c) hj, ← ht, hj]

/-- The payees command looks at dates and payees only. -/
theorem C124_payees (hl : l.Suffices e.filters .payees) (R : RegexEngine) (order : List Str → List Str) (hr : rejection fs' n' bytes' path' = none)
    (hb : (delivered fs n bytes path).map (Call.bare l) = (delivered fs' n' bytes' path').map (Call.bare l))
    (ht : payeesCmd e R args order fs n bytes path = .ok text) : payeesCmd e R args order fs' n' bytes' path' = .ok text := by
  have step : ∀ (c : Call) (u : List Str), e.payeesHandlers.call u (c.bare l) = e.payeesHandlers.call u c := by
    intro c u
    cases c with
    | periodic pt f => rfl
    | normal t f =>
      show e.dateChecked payeesHandler u (t.bare l) _ = e.dateChecked payeesHandler u t f
      unfold Env.dateChecked payeesHandler
      rw [range_bare, show (t.bare l).payee = t.payee from if_pos hl]
  unfold payeesCmd at ht ⊢
  cases hj : runParse fs n bytes path e.payeesHandlers [] with
  | error f => rw [hj] at ht; cases ht
  | ok s =>
    rw [runParse_bare hr hb (fun c _ => step c) (fun c _ => step c) hj]
    rw [hj] at ht
    exact ht

/-- The balance command looks at dates, accounts and amounts, and at payees and notes only if there are filters for them; to the letter, if transactions are selected as a
whole or not at all. -/
theorem C124_balance (hl : l.Suffices e.filters .balance) (ho : ∀ l, (e.mapOrder l).Perm l) (hr : rejection m'.fs m'.maxOpen bytes' path' = none)
    (hb : (delivered m.fs m.maxOpen bytes path).map (Call.bare l) = (delivered m'.fs m'.maxOpen bytes' path').map (Call.bare l))
    (hw : e.Wholly (delivered m.fs m.maxOpen bytes path)) (ht : balanceCmd e o.showZero o.flatten o.collapse m.fs m.maxOpen bytes path = .ok text) :
    balanceCmd e o.showZero o.flatten o.collapse m'.fs m'.maxOpen bytes' path' = .ok text ∧
      m'.runOn e o args' bytes' path' .balance = m.runOn e o args bytes path .balance := by
  have hw' : e.Wholly (delivered m'.fs m'.maxOpen bytes' path') := by
    rw [← wholly_bare hl, ← hb, wholly_bare hl]
    exact hw
  have hj : ∃ j, runParse m.fs m.maxOpen bytes path e.balanceHandlers newJournal = .ok j := by
    unfold balanceCmd at ht
    cases hj : runParse m.fs m.maxOpen bytes path e.balanceHandlers newJournal with
    | error f => rw [hj] at ht; cases ht
    | ok j => exact ⟨j, rfl⟩
  have hj' : ∃ j, runParse m'.fs m'.maxOpen bytes' path' e.balanceHandlers newJournal = .ok j := by
    rw [C61_runs_iff e ho] at hj ⊢
    refine ⟨hr, ?_⟩
    rw [← ready_bare hl, ← hb, ready_bare hl]
    exact hj.2
  obtain ⟨j', hj'⟩ := hj'
  obtain ⟨text', ht'⟩ : ∃ text', balanceCmd e o.showZero o.flatten o.collapse m'.fs m'.maxOpen bytes' path' = .ok text' := by
    unfold balanceCmd
    rw [hj']
    exact ⟨_, rfl⟩
  obtain ⟨qss, a1, a2, a3⟩ := C73_balance_output m e ho o args bytes path text ht
  obtain ⟨qss', b1, b2, b3⟩ := C73_balance_output m' e ho o args' bytes' path' text' ht'
  rw [gives_wholly a1 hw] at a2 a3
  rw [gives_wholly b1 hw'] at b2 b3
  rw [← balanceReport_image (bare_path l) (bare_amount l), ← selected_bare hl, ← hb, selected_bare hl, balanceReport_image (bare_path l) (bare_amount l)] at b3
  have := balanceReport_unique b3 a3
  subst this
  refine ⟨ht', ?_⟩
  rw [a2, b2, ← balanceMixes_image (bare_path l) (bare_amount l) [] (e.selected (delivered m'.fs m'.maxOpen bytes' path')),
    ← balanceMixes_image (bare_path l) (bare_amount l) [] (e.selected (delivered m.fs m.maxOpen bytes path)), ← selected_bare hl, ← selected_bare hl, hb]

/-- So does the budget command, which looks at the periods of monthly budgets as well. -/
theorem C124_budget (hl : l.Suffices e.filters .budget) (ho : ∀ l, (e.mapOrder l).Perm l) (hs : SortsMonths m.sortDates) (hs' : SortsMonths m'.sortDates)
    (hd : e.dateError = none) (hr : rejection m'.fs m'.maxOpen bytes' path' = none)
    (hb : (delivered m.fs m.maxOpen bytes path).map (Call.bare l) = (delivered m'.fs m'.maxOpen bytes' path').map (Call.bare l))
    (hw : e.Wholly (delivered m.fs m.maxOpen bytes path)) (ht : budgetCmd e m.sortDates m.fs m.maxOpen bytes path = .ok text) :
    budgetCmd e m'.sortDates m'.fs m'.maxOpen bytes' path' = .ok text ∧
      m'.runOn e o args' bytes' path' .budget = m.runOn e o args bytes path .budget := by
  have hl' : l.Suffices e.filters .balance := hl
  have hw' : e.Wholly (delivered m'.fs m'.maxOpen bytes' path') := by
    rw [← wholly_bare hl', ← hb, wholly_bare hl']
    exact hw
  have hf : (e.filed (delivered m'.fs m'.maxOpen bytes' path')).map (onFiled (Posting.bare l)) =
      (e.filed (delivered m.fs m.maxOpen bytes path)).map (onFiled (Posting.bare l)) := by
    rw [← filed_bare hl', ← filed_bare hl', hb]
  obtain ⟨text', ht'⟩ := (budgetCmd_ok_iff (bytes := bytes') (path := path') ho hd m'.sortDates m'.fs m'.maxOpen).2 ⟨hr, by
    have := ((budgetCmd_ok_iff ho hd _ _ _).1 ⟨_, ht⟩).2
    simp only [Command.Lacks] at this ⊢
    rintro ⟨x, hx, hn⟩
    have hm := List.mem_map_of_mem (f := onFiled (Posting.bare l)) hx
    rw [hf] at hm
    obtain ⟨y, hy, he⟩ := List.mem_map.1 hm
    refine this ⟨y, hy, fun hy' => hn ?_⟩
    have key : ∀ z : Filed, (onFiled (Posting.bare l) z).Fileable ↔ z.Fileable := by
      intro z
      unfold Filed.Fileable
      rw [category_image (bare_path l)]
      rfl
    rw [← key x, ← he, key y]
    exact hy'⟩
  obtain ⟨xss, a1, a2, a3⟩ := C75_budget_output m hs e ho o args bytes path text ht
  obtain ⟨xss', b1, b2, b3⟩ := C75_budget_output m' hs' e ho o args' bytes' path' text' ht'
  rw [filed_wholly a1 hw] at a2 a3
  rw [filed_wholly b1 hw'] at b2 b3
  rw [← budgetReport_image (bare_path l) (bare_amount l), hf, budgetReport_image (bare_path l) (bare_amount l)] at b3
  have := budgetReport_unique (filed_real e m.fs m.maxOpen bytes path) b3 a3
  subst this
  refine ⟨ht', ?_⟩
  rw [a2, b2, ← budgetMixes_image (bare_path l) (bare_amount l) [] (e.filed (delivered m'.fs m'.maxOpen bytes' path')),
    ← budgetMixes_image (bare_path l) (bare_amount l) [] (e.filed (delivered m.fs m.maxOpen bytes path)), hf]

omit [Unicode] in
theorem check_bare {e : Env} {l : Looks} (hl : l.Suffices e.filters .balance) (ho : ∀ l, (e.mapOrder l).Perm l) {t : Transaction}
    (hw : WholeSelected e.filters t ∨ selection e.filters t = []) :
    (∃ x, e.checkAgainstFilters t = .error x ∧ e.checkAgainstFilters (t.bare l) = .error x) ∨
    ∃ b ps, e.checkAgainstFilters t = .ok (b, ps) ∧ e.checkAgainstFilters (t.bare l) = .ok (b, ps.map (Posting.bare l)) := by
  cases hr : e.withinDateRange t with
  | error x =>
    refine Or.inl ⟨x, ?_, ?_⟩
    · simp only [Env.checkAgainstFilters, hr]
    · simp only [Env.checkAgainstFilters, range_bare, hr]
  | ok b =>
    cases b with
    | false => exact Or.inr ⟨false, [], C44_out_of_range e t hr, C44_out_of_range e (t.bare l) hr⟩
    | true =>
      by_cases h : WholeSelected e.filters t
      · exact Or.inr ⟨true, t.postings, (C44_whole e t hr h).1, (C44_whole e (t.bare l) hr ((whole_bare hl t).2 h)).1⟩
      · have h0 := hw.resolve_left h
        obtain ⟨ps, p1, p2⟩ := C44_any_of e ho t hr
        obtain ⟨qs, q1, q2⟩ := C44_any_of e ho (t.bare l) hr
        rw [h0] at p2
        rw [selection_bare hl, h0] at q2
        rw [List.perm_nil.1 p2, decide_eq_false h] at p1
        rw [List.perm_nil.1 q2, decide_eq_false (fun h' => h ((whole_bare hl t).1 h'))] at q1
        exact Or.inr ⟨false, [], p1, q1⟩

omit [Unicode] in
theorem addBuckets_bare (l : Looks) (d : Date) (ps : List Posting) : ∀ s : Stats, Stats.addBuckets d (ps.map (Posting.bare l)) s = Stats.addBuckets d ps s := by
  induction ps with
  | nil => intro s; rfl
  | cons p ps ih =>
    intro s
    rw [List.map_cons, Stats.addBuckets, Stats.addBuckets]
    have : s.addBucket d (p.bare l) = s.addBucket d p := rfl
    rw [this]
    congr 1
    funext s'
    exact ih s'

/-- The statistics look at dates, accounts, amounts, payees and file names, and at notes only if there are filters for them. -/
theorem C124_statistics (hl : l.Suffices e.filters .statistics) (ho : ∀ l, (e.mapOrder l).Perm l) (humanize : Date → Str) (order : List Str → List Str)
    (sort : List Date → List Date) (hr : rejection fs' n' bytes' path' = none)
    (hb : (delivered fs n bytes path).map (Call.bare l) = (delivered fs' n' bytes' path').map (Call.bare l))
    (hw : e.Wholly (delivered fs n bytes path)) (ht : statsCmd e humanize order sort fs n bytes path = .ok text) :
    statsCmd e humanize order sort fs' n' bytes' path' = .ok text := by
  obtain ⟨h1, h2, h3⟩ := hl
  have hl' : l.Suffices e.filters .balance := fun f hf => ⟨fun _ => h1, h3 f hf⟩
  have hw' : e.Wholly (delivered fs' n' bytes' path') := by
    rw [← wholly_bare hl', ← hb, wholly_bare hl']
    exact hw
  have step : ∀ {calls : List Call}, e.Wholly calls → ∀ c ∈ calls, ∀ u : Stats, e.statsHandlers.call u (c.bare l) = e.statsHandlers.call u c := by
    intro calls hw c hc u
    cases c with
    | periodic pt f => rfl
    | normal t f =>
      show e.statsHandler u (t.bare l) (if l.files then f else []) = e.statsHandler u t f
      rw [if_pos h2]
      unfold Env.statsHandler
      rcases check_bare hl' ho (hw t f hc) with ⟨x, c1, c2⟩ | ⟨b, ps, c1, c2⟩
      · rw [c1, c2]
      · rw [c1, c2]
        simp only [List.length_map, List.foldl_map, bare_path, addBuckets_bare, show (t.bare l).payee = t.payee from if_pos h1, show (t.bare l).date = t.date from rfl]
  unfold statsCmd at ht ⊢
  cases hj : runParse fs n bytes path e.statsHandlers {} with
  | error f => rw [hj] at ht; cases ht
  | ok s => rw [runParse_bare hr hb (step hw) (step hw') hj, ← ht, hj]

end

/-- Two journals that differ in states, notes and payees: the same balances and budgets. -/
example :
    letI := asciiUnicode
    let a := utf8 "2020-01-01 * shop | milk  ; one\n  ; two\n  Expenses:Food  $3  ; three\n  Cash\n"
    let b := utf8 "2020-01-01 ! market\n  Expenses:Food  $3\n  Cash\n"
    let m := shelfMachine
    let l : Looks := ⟨false, false, false⟩
    (delivered m.fs m.maxOpen a (str "j")).map (Call.bare l) = (delivered m.fs m.maxOpen b (str "j")).map (Call.bare l) ∧
      delivered m.fs m.maxOpen a (str "j") ≠ delivered m.fs m.maxOpen b (str "j") ∧
      rejection m.fs m.maxOpen a (str "j") = none ∧ rejection m.fs m.maxOpen b (str "j") = none := by
  decide +kernel

example : Looks.Suffices ⟨false, false, false⟩ [] .balance ∧ Looks.Suffices ⟨true, false, false⟩ [⟨fun _ => true, .payee⟩, ⟨fun _ => true, .accountName⟩] .budget ∧
    ¬ Looks.Suffices ⟨false, false, false⟩ [⟨fun _ => true, .payee⟩] .balance :=
  ⟨by simp [Looks.Suffices], by simp [Looks.Suffices], by simp [Looks.Suffices]⟩

example : letI := asciiUnicode
    let m := shelfMachine
    let e := m.env {} []
    let a := utf8 "2020-01-01 * shop | milk  ; one\n  ; two\n  Expenses:Food  $3  ; three\n  Cash\n"
    e.Wholly (delivered m.fs m.maxOpen a (str "j")) ∧ ∃ text, balanceCmd e false false false m.fs m.maxOpen a (str "j") = .ok text ∧
      budgetCmd e m.sortDates m.fs m.maxOpen a (str "j") ≠ .ok [] :=
  ⟨fun _ _ _ => Or.inl (Or.inl rfl), _, by rfl, by decide +kernel⟩

end Gledger
