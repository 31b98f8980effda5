import Verif.Lemmas.LexedItems
import Verif.Lemmas.Calendar

/-! What the builder makes of the lexer's items. -/

namespace Gledger

/-- A posting under construction. -/
def Posting.Part [Unicode] (p : Posting) : Prop :=
  (p.accountPath = [] ∨ AccountText p.accountPath) ∧ (∀ a ∈ p.amount, CommodityText a.commodity) ∧ ∀ c ∈ p.comments, Trimmed c

/-- The state of the builder between items. -/
structure Builder.Fine [Unicode] (b : Builder) : Prop where
  trans : ∀ t, b.transaction = some t → t.Sound
  cur : ∀ t, b.transaction = some t → b.ttype = .normal → b.current ≠ none
  state : ∀ t, b.transaction = some t → b.ttype = .normal → b.prev = some .stateItem → t.state ≠ .noState
  period : ∀ pt, b.periodic = some pt → pt.period.Sound ∧ ∀ p ∈ pt.transaction.postings, p.accountPath ≠ [] → p.linked = true
  live : ∀ p, b.current = some p → b.target ≠ none
  current : ∀ p, b.current = some p → p.Part ∧ (p.linked = true ∨ (b.ttype = .periodic ∧ p.accountPath = []))

theorem commodityText_nil [Unicode] : CommodityText [] := ⟨by intro c h; simp at h, by simp, by simp⟩

theorem fieldText_nil : FieldText [] := by decide

theorem sound_new [Unicode] : Transaction.Sound {} :=
  ⟨by decide, by decide, by decide, fieldText_nil, by intro c h; simp at h, by simp, Or.inl (by simp), by simp, by simp⟩

theorem period_new : Period.Sound {} := by decide

theorem written4_le {y : Str} {n : Nat} (h : WrittenIn 4 y n) : n ≤ 9999 := by
  obtain ⟨h1, h2, h3⟩ := h
  match y, h1 with
  | [a, b, c, d], _ =>
    have ha := h2 a (by simp)
    have hb := h2 b (by simp)
    have hc := h2 c (by simp)
    have hd := h2 d (by simp)
    obtain ⟨_, ha⟩ := ha
    obtain ⟨_, hb⟩ := hb
    obtain ⟨_, hc⟩ := hc
    obtain ⟨_, hd⟩ := hd
    have e0 : '0'.toNat = 48 := rfl
    have e9 : '9'.toNat = 57 := rfl
    rw [← h3]
    simp only [decimalValue, List.foldl_cons, List.foldl_nil]
    omega

theorem parsePeriod_sound (s : Str) : (parsePeriod s).Sound := by
  unfold parsePeriod
  cases h : parseYM '-' s with
  | none => exact period_new
  | some d =>
    obtain ⟨⟨ys, ms, n, _, e2, e3, _, e5⟩, hr⟩ := (parseYM_iff _ _ _).1 h
    have := written4_le e3
    exact ⟨hr, e5, by rw [e2]; omega, by rw [e2]; omega, rfl, rfl⟩

theorem parseDate_sound {s : Str} {d : Date} (h : parseDate s = .ok d) : d.Real ∧ 0 ≤ d.year ∧ d.year ≤ 9999 := by
  have key : ∀ sep, parseYMD sep s = some d → d.Real ∧ 0 ≤ d.year ∧ d.year ≤ 9999 := by
    intro sep hs
    obtain ⟨⟨ys, ms, ds, n, _, e2, e3, _, _⟩, hr⟩ := (parseYMD_iff _ _ _).1 hs
    have := written4_le e3
    exact ⟨hr, by rw [e2]; omega, by rw [e2]; omega⟩
  unfold parseDate at h
  split at h
  · cases h
  · rename_i c hc
    split at h
    · cases hp : parseYMD c s with
      | none => rw [hp] at h; cases h
      | some d' =>
        rw [hp] at h
        simp only [Except.ok.injEq] at h
        subst h
        exact key c hp
    · cases h

theorem Transaction.Sound.addPosting [Unicode] {t : Transaction} (h : t.Sound) {p : Posting} (hp : p.Sound) : (t.addPosting p).1.Sound := by
  obtain ⟨h1, h2, h3, h4, h5, h6, h7, h8, h9⟩ := h
  have key : ∀ q ∈ t.postings ++ [p], q.Sound := by
    intro q hq
    rcases List.mem_append.1 hq with hq | hq
    · exact h9 q hq
    · rw [List.mem_singleton] at hq; subst hq; exact hp
  unfold Transaction.addPosting
  split
  · split
    · exact ⟨h1, h2, h3, h4, h5, h6, h7, h8, h9⟩
    · exact ⟨h1, h2, h3, h4, h5, h6, h7, h8, key⟩
  · exact ⟨h1, h2, h3, h4, h5, h6, h7, h8, key⟩

theorem foldl_closeStep_commodityText [Unicode] (ps : List Posting) (h : ∀ p ∈ ps, ∀ a ∈ p.amount, CommodityText a.commodity) :
    ∀ acc : Str × I64, CommodityText acc.1 → CommodityText (ps.foldl closeStep acc).1 := by
  induction ps with
  | nil => intro acc ha; exact ha
  | cons p ps ih =>
    intro acc ha
    rw [List.foldl_cons]
    refine ih (fun q hq => h q (by simp [hq])) _ ?_
    unfold closeStep
    cases hp : p.amount with
    | none => exact ha
    | some a =>
      simp only
      split
      · exact h p (by simp) a (by simp [hp])
      · exact ha

theorem Transaction.Sound.close [Unicode] {t : Transaction} (h : t.Sound) : t.close.1.Sound := by
  obtain ⟨h1, h2, h3, h4, h5, h6, h7, h8, h9⟩ := h
  have hc : CommodityText (t.postings.foldl closeStep ([], 0)).1 :=
    foldl_closeStep_commodityText _ (fun p hp => (h9 p hp).2.2.1) _ commodityText_nil
  unfold Transaction.close
  simp only
  split
  · cases t.elided with
    | none => exact ⟨h1, h2, h3, h4, h5, h6, h7, h8, h9⟩
    | some i =>
      refine ⟨h1, h2, h3, h4, h5, h6, h7, h8, fun q hq => ?_⟩
      simp only at hq
      obtain ⟨n, hn, rfl⟩ := List.mem_iff_getElem.1 hq
      rw [List.getElem_modify]
      have hl : n < t.postings.length := by simpa using hn
      obtain ⟨q1, q2, q3, q4⟩ := h9 _ (List.getElem_mem hl)
      split
      · refine ⟨q1, q2, fun a ha => ?_, q4⟩
        simp only [Option.mem_def, Option.some.injEq] at ha
        rw [← ha]
        exact hc
      · exact ⟨q1, q2, q3, q4⟩
  · exact ⟨h1, h2, h3, h4, h5, h6, h7, h8, h9⟩


/-- Every posting with an account name knows its transaction. -/
def Transaction.Linked (t : Transaction) : Prop := ∀ p ∈ t.postings, p.accountPath ≠ [] → p.linked = true

theorem Transaction.Linked.addPosting {t : Transaction} (h : t.Linked) {p : Posting} (hp : p.accountPath ≠ [] → p.linked = true) :
    (t.addPosting p).1.Linked := by
  have key : ∀ q ∈ t.postings ++ [p], q.accountPath ≠ [] → q.linked = true := by
    intro q hq
    rcases List.mem_append.1 hq with hq | hq
    · exact h q hq
    · rw [List.mem_singleton] at hq; subst hq; exact hp
  unfold Transaction.addPosting
  split
  · split
    · exact h
    · exact key
  · exact key

theorem Transaction.Linked.close {t : Transaction} (h : t.Linked) : t.close.1.Linked := by
  unfold Transaction.close
  simp only
  split
  · cases t.elided with
    | none => exact h
    | some i =>
      intro q hq
      simp only at hq
      obtain ⟨n, hn, rfl⟩ := List.mem_iff_getElem.1 hq
      rw [List.getElem_modify]
      have hl : n < t.postings.length := by simpa using hn
      have := h _ (List.getElem_mem hl)
      split
      · exact this
      · exact this
  · exact h

theorem Builder.Fine.put [Unicode] {b : Builder} (hf : b.Fine) {t t' : Transaction} (ht : b.target = some t) {cur' : Option Posting}
    {pv' : Option ItemType} (hs : b.ttype = .normal → t'.Sound)
    (hst : b.ttype = .normal → pv' = some .stateItem → t'.state ≠ .noState) (hl : b.ttype = .periodic → t'.Linked)
    (hc : ∀ p, cur' = some p → p.Part ∧ (p.linked = true ∨ (b.ttype = .periodic ∧ p.accountPath = [])))
    (hn : cur' = none → b.current = none) : Builder.Fine { b.setTarget t' with current := cur', prev := pv' } := by
  obtain ⟨tt, tr, pe, cu, pv⟩ := b
  obtain ⟨f1, f2, f3, f4, f5, f6⟩ := hf
  cases tt with
  | normal =>
    simp only [Builder.target] at ht
    subst ht
    refine ⟨?_, ?_, ?_, f4, ?_, hc⟩
    · intro u hu; cases hu; exact hs rfl
    · intro u _ _ hcn; exact f2 _ rfl rfl (hn hcn)
    · intro u hu _ hp; cases hu; exact hst rfl hp
    · intro p hp; simp [Builder.setTarget, Builder.target]
  | periodic =>
    simp only [Builder.target, Option.map_eq_some_iff] at ht
    obtain ⟨pt, rfl, rfl⟩ := ht
    refine ⟨f1, ?_, ?_, ?_, ?_, hc⟩
    · intro u _ h; cases h
    · intro u _ h; cases h
    · intro u hu; cases hu; exact ⟨(f4 _ rfl).1, hl rfl⟩
    · intro p hp; simp [Builder.setTarget, Builder.target]

theorem Builder.Fine.keep [Unicode] {b : Builder} (hf : b.Fine) {cur' : Option Posting} {pv' : ItemType} (hp : pv' ≠ .stateItem)
    (hc : ∀ p, cur' = some p → p.Part ∧ (p.linked = true ∨ (b.ttype = .periodic ∧ p.accountPath = [])))
    (hn : cur' = none ↔ b.current = none) : Builder.Fine { b with current := cur', prev := some pv' } := by
  obtain ⟨f1, f2, f3, f4, f5, f6⟩ := hf
  refine ⟨f1, ?_, ?_, f4, ?_, hc⟩
  · intro u hu ht hcn; exact f2 u hu ht (hn.1 hcn)
  · intro u _ _ h; cases h; exact absurd rfl hp
  · intro p hpp
    cases hb : b.current with
    | none => rw [hn.2 hb] at hpp; cases hpp
    | some q => exact f5 q hb

theorem Builder.Fine.note [Unicode] {b : Builder} (hf : b.Fine) {t t' : Transaction} {pv' : ItemType} (hp : pv' ≠ .stateItem)
    (ht : b.transaction = some t) (hs : t'.Sound) : Builder.Fine { b with transaction := some t', prev := some pv' } := by
  obtain ⟨f1, f2, f3, f4, f5, f6⟩ := hf
  refine ⟨?_, ?_, ?_, f4, ?_, f6⟩
  · intro u hu; cases hu; exact hs
  · intro u hu htt; exact f2 t ht htt
  · intro u _ _ h; cases h; exact absurd rfl hp
  · intro p hpp
    have := f5 p hpp
    unfold Builder.target at this ⊢
    revert this
    cases b.ttype <;> simp

theorem Builder.Fine.sound [Unicode] {b : Builder} (hf : b.Fine) {t : Transaction} (ht : b.target = some t) (hn : b.ttype = .normal) :
    b.transaction = some t ∧ t.Sound := by
  unfold Builder.target at ht
  rw [hn] at ht
  exact ⟨ht, hf.trans t ht⟩

theorem Builder.Fine.linked [Unicode] {b : Builder} (hf : b.Fine) {t : Transaction} (ht : b.target = some t) (hn : b.ttype = .periodic) :
    t.Linked := by
  unfold Builder.target at ht
  rw [hn] at ht
  simp only [Option.map_eq_some_iff] at ht
  obtain ⟨pt, hpt, rfl⟩ := ht
  exact (hf.period pt hpt).2

theorem buildNormal_fine [Unicode] {pv : Option ItemType} {b : Builder} {i : ItemType} {c : Str} (hL : ItemText pv i c)
    (hR : Recalls pv b) (hf : b.Fine) (h : (b.buildNormal i c).2 = none) :
    Builder.Fine { (b.buildNormal i c).1 with prev := some i } := by
  have plain : ∀ j, j ≠ .stateItem → Builder.Fine { b with prev := some j } := fun j hj =>
    hf.keep hj hf.current Iff.rfl
  cases i
  case transactionHeaderCommentItem =>
    simp only [Builder.buildNormal] at h ⊢
    cases ht : b.transaction with
    | none => simp [ht] at h
    | some t =>
      obtain ⟨h1, h2, h3, h4, h5, h6, h7, h8, h9⟩ := hf.trans t ht
      exact hf.note (pv' := .transactionHeaderCommentItem) (by decide) ht ⟨h1, h2, h3, h4, h5, h6, hL, h8, h9⟩
  case commentItem =>
    simp only [Builder.buildNormal] at h ⊢
    cases hc : b.current with
    | none => simp [hc] at h
    | some p =>
      simp only [hc] at h ⊢
      obtain ⟨⟨p1, p2, p3⟩, p4⟩ := hf.current p hc
      split
      · refine hf.keep (by decide) ?_ (by simp [hc])
        intro q hq
        cases hq
        refine ⟨⟨p1, p2, ?_⟩, p4⟩
        intro x hx
        rcases List.mem_append.1 hx with hx | hx
        · exact p3 x hx
        · rw [List.mem_singleton] at hx; subst hx; exact hL
      · rename_i hl
        rw [if_neg hl] at h
        cases ht : b.transaction with
        | none => simp [ht] at h
        | some t =>
          obtain ⟨h1, h2, h3, h4, h5, h6, h7, h8, h9⟩ := hf.trans t ht
          have hs : Transaction.Sound { t with notes := t.notes ++ [c] } := by
            refine ⟨h1, h2, h3, h4, h5, h6, h7, ?_, h9⟩
            intro x hx
            rcases List.mem_append.1 hx with hx | hx
            · exact h8 x hx
            · rw [List.mem_singleton] at hx; subst hx; exact hL
          have := hf.note (pv' := .commentItem) (by decide) ht hs
          rw [hc] at this
          exact this
  case dateItem =>
    simp only [Builder.buildNormal] at h ⊢
    cases hd : parseDate c with
    | error f => simp [hd] at h
    | ok d =>
      simp only [hd] at h ⊢
      cases ht : b.target with
      | none => simp [ht] at h
      | some t =>
        obtain ⟨d1, d2, d3⟩ := parseDate_sound hd
        refine hf.put (cur' := (b.setTarget { t with date := d }).current) ht ?_ ?_ ?_ ?_ ?_
        · intro hn
          obtain ⟨_, h1, h2, h3, h4, h5, h6, h7, h8, h9⟩ := hf.sound ht hn
          exact ⟨d1, d2, d3, h4, h5, h6, h7, h8, h9⟩
        · intro _ h; cases h
        · intro hn; exact (hf.linked ht hn : t.Linked)
        · rw [show (b.setTarget { t with date := d }).current = b.current by unfold Builder.setTarget; cases b.ttype <;> rfl]
          exact hf.current
        · rw [show (b.setTarget { t with date := d }).current = b.current by unfold Builder.setTarget; cases b.ttype <;> rfl]
          exact id
  case stateItem =>
    simp only [Builder.buildNormal] at h ⊢
    split
    · rename_i hp; simp [hp] at h
    · rename_i hp
      rw [if_neg hp] at h
      cases ht : b.target with
      | none => rcases hL with rfl | rfl <;> simp [ht] at h
      | some t =>
        have key : ∀ st : TransactionState, st ≠ .noState → Builder.Fine { b.setTarget { t with state := st } with prev := some .stateItem } := by
          intro st hst
          have hcur : (b.setTarget { t with state := st }).current = b.current := by unfold Builder.setTarget; cases b.ttype <;> rfl
          refine hf.put (cur' := (b.setTarget { t with state := st }).current) ht ?_ ?_ ?_ ?_ ?_
          · intro hn
            obtain ⟨_, h1, h2, h3, h4, h5, h6, h7, h8, h9⟩ := hf.sound ht hn
            exact ⟨h1, h2, h3, h4, h5, fun h => absurd h hst, h7, h8, h9⟩
          · intro _ _; exact hst
          · intro hn; exact (hf.linked ht hn : t.Linked)
          · rw [hcur]; exact hf.current
          · rw [hcur]; exact id
        rcases hL with rfl | rfl
        · exact key .uncleared (by decide)
        · exact key .cleared (by decide)
  case payeeItem =>
    simp only [Builder.buildNormal] at h ⊢
    split
    · rename_i hp; simp [hp] at h
    · rename_i hp
      rw [if_neg hp] at h
      obtain ⟨l1, l2, l3⟩ := hL
      cases ht : b.target with
      | none => simp [ht] at h
      | some t =>
        have hcur : (b.setTarget { t with payee := c }).current = b.current := by unfold Builder.setTarget; cases b.ttype <;> rfl
        refine hf.put (cur' := (b.setTarget { t with payee := c }).current) ht ?_ ?_ ?_ ?_ ?_
        · intro hn
          obtain ⟨hbt, h1, h2, h3, h4, h5, h6, h7, h8, h9⟩ := hf.sound ht hn
          refine ⟨h1, h2, h3, l1, l2, ?_, h7, h8, h9⟩
          intro hst
          rcases l3 with ⟨_, l3⟩ | l3
          · exact l3
          · exact absurd hst (hf.state t hbt hn ((hR (Or.inr l3)).trans l3))
        · intro _ h; cases h
        · intro hn; exact (hf.linked ht hn : t.Linked)
        · rw [hcur]; exact hf.current
        · rw [hcur]; exact id
  case accountItem =>
    simp only [Builder.buildNormal] at h ⊢
    split
    · rename_i hp; rw [if_pos hp] at h; cases h
    · rename_i hp
      rw [if_neg hp] at h
      cases hc : b.current with
      | none => simp [hc] at h
      | some p =>
        simp only [hc] at h ⊢
        obtain ⟨⟨p1, p2, p3⟩, p4⟩ := hf.current p hc
        have hnew : ∀ q : Posting, some ({ linked := true, accountPath := c } : Posting) = some q →
            q.Part ∧ (q.linked = true ∨ (b.ttype = .periodic ∧ q.accountPath = [])) := by
          intro q hq
          cases hq
          exact ⟨⟨Or.inr hL, by simp, by simp⟩, Or.inl rfl⟩
        split
        · rename_i hl
          rw [if_pos hl] at h
          have hne : p.accountPath ≠ [] := by intro h0; simp [h0] at hl
          have hlk : p.linked = true := by
            rcases p4 with p4 | p4
            · exact p4
            · exact absurd p4.2 hne
          cases ht : b.target with
          | none => simp [ht] at h
          | some t =>
            refine hf.put ht ?_ ?_ ?_ hnew (by simp)
            · intro hn
              exact (hf.sound ht hn).2.addPosting ⟨hlk, p1, p2, p3⟩
            · intro _ h; cases h
            · intro hn; exact (hf.linked ht hn).addPosting (fun _ => hlk)
        · refine hf.keep (by decide) ?_ (by simp [hc])
          intro q hq
          cases hq
          refine ⟨⟨Or.inr hL, p2, p3⟩, Or.inl ?_⟩
          exact Option.isSome_iff_ne_none.2 (hf.live p hc)
  case commodityItem =>
    simp only [Builder.buildNormal] at h ⊢
    split
    · rename_i hp; rw [if_pos hp] at h; cases h
    · rename_i hp
      rw [if_neg hp] at h
      cases hc : b.current with
      | none => simp [hc] at h
      | some p =>
        simp only [hc] at h ⊢
        obtain ⟨⟨p1, p2, p3⟩, p4⟩ := hf.current p hc
        refine hf.keep (by decide) ?_ (by simp [hc])
        intro q hq
        cases hq
        refine ⟨⟨p1, ?_, p3⟩, p4⟩
        intro a ha
        simp only [Option.mem_def, Option.some.injEq] at ha
        subst ha
        cases p.amount <;> exact hL
  case amountItem =>
    simp only [Builder.buildNormal] at h ⊢
    split
    · rename_i hp; rw [if_pos hp] at h; cases h
    · rename_i hp
      rw [if_neg hp] at h
      cases hc : b.current with
      | none => simp [hc] at h
      | some p =>
        simp only [hc] at h ⊢
        obtain ⟨⟨p1, p2, p3⟩, p4⟩ := hf.current p hc
        cases hq : parseAmount c with
        | error f => cases f <;> simp [hq] at h
        | ok n =>
          refine hf.keep (by decide) ?_ (by simp [hc])
          intro q hq
          cases hq
          refine ⟨⟨p1, ?_, p3⟩, p4⟩
          intro a ha
          simp only [Option.mem_def, Option.some.injEq] at ha
          subst ha
          cases hpa : p.amount with
          | none => exact commodityText_nil
          | some a => exact p2 a (by simp [hpa])
  all_goals exact plain _ (by decide)

theorem build_fine [Unicode] {pv : Option ItemType} {b : Builder} {i : ItemType} {c : Str} (hL : ItemText pv i c)
    (hR : Recalls pv b) (hf : b.Fine) (h : (b.build i c).2 = none) : (b.build i c).1.Fine := by
  have key : ∀ r : Step Builder, (r.2 = none → Builder.Fine { r.1 with prev := some i }) →
      (r.andThen fun b => ({ b with prev := some i }, none)).2 = none →
      (r.andThen fun b => (({ b with prev := some i }, none) : Step Builder)).1.Fine := by
    rintro ⟨b', o⟩ hr h
    cases o with
    | none => exact hr rfl
    | some f => cases h
  refine key _ ?_ h
  cases htt : b.ttype with
  | normal => exact buildNormal_fine hL hR hf
  | periodic =>
    simp only [Builder.buildPeriodic]
    cases hp : b.periodic with
    | none => intro h; cases h
    | some pt =>
      by_cases hi : i = .periodItem
      · subst hi
        intro _
        obtain ⟨f1, f2, f3, f4, f5, f6⟩ := hf
        refine ⟨f1, ?_, ?_, ?_, ?_, ?_⟩
        · intro t ht hn; exact f2 t ht hn
        · intro _ _ _ h; cases h
        · intro u hu; cases hu; exact ⟨parsePeriod_sound c, (f4 pt hp).2⟩
        · intro p hpp; simp [Builder.target, htt]
        · exact f6
      · cases i <;> first | exact absurd rfl hi | exact buildNormal_fine hL hR hf


/-- What holds of every transaction a handler is given. -/
def Call.Sound [Unicode] : Call → Prop
  | .normal t _ => t.Sound ∧ t.postings ≠ []
  | .periodic pt _ => pt.period.Sound ∧ pt.transaction.Linked

theorem addPosting_ne_nil {t : Transaction} {p : Posting} (h : (t.addPosting p).2 = none) : (t.addPosting p).1.postings ≠ [] := by
  unfold Transaction.addPosting at h ⊢
  split
  · split
    · rename_i h1 h2; simp [h1, h2] at h
    · simp
  · simp

theorem close_ne_nil {t : Transaction} (h : t.postings ≠ []) : t.close.1.postings ≠ [] := by
  unfold Transaction.close
  simp only
  split
  · cases t.elided with
    | none => exact h
    | some i =>
      intro h0
      apply h
      have := congrArg List.length h0
      simp only [List.length_modify, List.length_nil] at this
      exact List.length_eq_zero_iff.1 this
  · exact h

theorem delivery_sound [Unicode] : DeliveryInv ItemText Builder.Fine Call.Sound where
  start := ⟨by simp, by simp, by simp, by simp, by simp, by simp⟩
  dated := by
    intro b c hf h
    simp only [Builder.build, Builder.begin, Builder.buildNormal] at h ⊢
    cases hd : parseDate c with
    | error f => simp [hd, Step.andThen] at h
    | ok d =>
      simp only [Builder.target, Builder.setTarget, Step.andThen]
      obtain ⟨d1, d2, d3⟩ := parseDate_sound hd
      refine ⟨?_, by simp, by simp, hf.period, by simp [Builder.target], ?_⟩
      · intro t ht
        cases ht
        obtain ⟨_, _, _, h4, h5, h6, h7, h8, h9⟩ := sound_new
        exact ⟨d1, d2, d3, h4, h5, h6, h7, h8, h9⟩
      · intro p hp
        cases hp
        exact ⟨⟨Or.inl rfl, by simp, by simp⟩, Or.inl rfl⟩
  timed := by
    intro b c hf h
    simp only [Builder.build, Builder.begin, Builder.buildPeriodic, Step.andThen]
    refine ⟨hf.trans, by simp, by simp, ?_, by simp [Builder.target], ?_⟩
    · intro pt hpt
      cases hpt
      exact ⟨parsePeriod_sound c, by simp⟩
    · intro p hp
      cases hp
      exact ⟨⟨Or.inl rfl, by simp, by simp⟩, Or.inr ⟨rfl, rfl⟩⟩
  built := fun pv b i c hL hR hf h => build_fine hL hR hf h
  normal := by
    intro b t file hf hn ht h
    obtain ⟨p, hp⟩ := Option.ne_none_iff_exists'.1 (hf.cur t ht hn)
    refine ⟨?_, ⟨by simp, by simp, by simp, hf.period, by simp, by simp⟩⟩
    unfold endNormalTransaction at h ⊢
    obtain ⟨⟨p1, p2, p3⟩, p4⟩ := hf.current p hp
    have hlk : p.linked = true := by
      rcases p4 with p4 | p4
      · exact p4
      · rw [hn] at p4; exact absurd p4.1 (by decide)
    have hs : (t.addPosting p).1.Sound := (hf.trans t ht).addPosting ⟨hlk, p1, p2, p3⟩
    have hne := addPosting_ne_nil (t := t) (p := p)
    simp only [hp] at h ⊢
    generalize t.addPosting p = r at h hs hne ⊢
    obtain ⟨t', o⟩ := r
    cases o with
    | some e => cases h
    | none => exact ⟨hs.close, close_ne_nil (hne rfl)⟩
  periodic := by
    intro b pt file hf hn ht h
    refine ⟨?_, ⟨hf.trans, by simp [hn], by simp [hn], by simp, by simp, by simp⟩⟩
    obtain ⟨h1, h2⟩ := hf.period pt ht
    refine ⟨h1, ?_⟩
    have key : ∀ (r : Transaction × Option Err) (bud : Bool), r.1.Linked → Transaction.Linked (match r with
        | (t, some e) => (t, some e)
        | (t, none) => (if (bud && !(t.postings.any fun p => p.accountPath = budgetRootID)) = true then
            (t.addPosting { linked := true, accountPath := budgetRootID }).1 else t).close).1 := by
      rintro ⟨t', o⟩ bud hl
      cases o with
      | some e => exact hl
      | none =>
        refine Transaction.Linked.close ?_
        split
        · exact hl.addPosting (fun _ => rfl)
        · exact hl
    have hl : Transaction.Linked ((match b.current with
        | none => (pt.transaction, none)
        | some p => pt.transaction.addPosting p) : Transaction × Option Err).1 := by
      cases hc : b.current with
      | none => exact h2
      | some p =>
        refine Transaction.Linked.addPosting h2 ?_
        rcases (hf.current p hc).2 with h | h
        · exact fun _ => h
        · exact fun hne => absurd h.2 hne
    exact key _ _ hl

end Gledger
