import Verif.Lemmas.Calls
import Verif.Lemmas.Rel

namespace Gledger

variable {σ τ : Type}

/-- No transaction is open. -/
def Builder.Idle (b : Builder) : Prop := b.transaction = none ∧ b.periodic = none ∧ b.current = none

/-- No transaction is open, or exactly one of the kind recorded in `ttype`. -/
def Builder.Shape (b : Builder) : Prop :=
  b.Idle ∨ (b.ttype = .normal ∧ b.transaction ≠ none ∧ b.periodic = none ∧ b.current ≠ none) ∨
    (b.ttype = .periodic ∧ b.transaction = none ∧ b.periodic ≠ none ∧ b.current ≠ none)

/-- Same kind of open transaction. -/
def Builder.SameKind (b b' : Builder) : Prop :=
  b'.ttype = b.ttype ∧ (b'.transaction = none ↔ b.transaction = none) ∧
    (b'.periodic = none ↔ b.periodic = none) ∧ (b'.current = none ↔ b.current = none)

theorem Builder.SameKind.refl (b : Builder) : b.SameKind b := ⟨rfl, Iff.rfl, Iff.rfl, Iff.rfl⟩

theorem Builder.SameKind.shape {b b' : Builder} (h : b.SameKind b') (hs : b.Shape) : b'.Shape := by
  obtain ⟨h1, h2, h3, h4⟩ := h
  unfold Builder.Shape Builder.Idle at *
  simp only [ne_eq, h1, h2, h3, h4]
  exact hs

theorem Builder.SameKind.setTarget {b : Builder} {t t' : Transaction} (h : b.target = some t) :
    b.SameKind (b.setTarget t') := by
  unfold Builder.setTarget Builder.target at *
  cases hb : b.ttype <;> rw [hb] at h <;> simp only at h ⊢
  · exact ⟨hb.symm, by simp [h], Iff.rfl, Iff.rfl⟩
  · refine ⟨hb.symm, Iff.rfl, ?_, Iff.rfl⟩
    simp

theorem Builder.SameKind.setCurrent {b : Builder} {p p' : Posting} (h : b.current = some p) :
    b.SameKind { b with current := some p' } := ⟨rfl, Iff.rfl, Iff.rfl, by simp [h]⟩

theorem Builder.SameKind.setTransaction {b : Builder} {t t' : Transaction} (h : b.transaction = some t) :
    b.SameKind { b with transaction := some t' } := ⟨rfl, by simp [h], Iff.rfl, Iff.rfl⟩

theorem Builder.buildNormal_sameKind (b : Builder) (item : ItemType) (content : Str) :
    b.SameKind (b.buildNormal item content).1 := by
  cases item <;> simp only [Builder.buildNormal]
  case transactionHeaderCommentItem =>
    split
    · exact .refl b
    · next hh => exact .setTransaction hh
  case commentItem =>
    split
    · exact .refl b
    · next hp =>
      split
      · exact .setCurrent hp
      · split
        · exact .refl b
        · next hh => exact .setTransaction hh
  case dateItem =>
    split
    · exact .refl b
    · split
      · exact .refl b
      · next hh => exact .setTarget hh
  case stateItem =>
    split
    · exact .refl b
    · split
      · exact .refl b
      · split
        · exact .refl b
        · next hh => exact .setTarget hh
  case payeeItem =>
    split
    · exact .refl b
    · split
      · exact .refl b
      · next hh => exact .setTarget hh
  case accountItem =>
    split
    · exact .refl b
    · split
      · exact .refl b
      · next hp =>
        split
        · split
          · exact .refl b
          · next t ht =>
            obtain ⟨h1, h2, h3, h4⟩ := Builder.SameKind.setTarget (t' := (t.addPosting _).1) ht
            exact ⟨h1, h2, h3, by simp [hp]⟩
        · exact .setCurrent hp
  case commodityItem =>
    split
    · exact .refl b
    · split
      · exact .refl b
      · next hp => exact .setCurrent hp
  case amountItem =>
    split
    · exact .refl b
    · split
      · exact .refl b
      · next hp => split <;> exact .setCurrent hp
  all_goals exact .refl b

theorem Builder.build_sameKind (b : Builder) (item : ItemType) (content : Str) :
    b.SameKind (b.build item content).1 := by
  have key : ∀ r : Step Builder, b.SameKind r.1 → b.SameKind (r.andThen fun b => ({ b with prev := some item }, none)).1 := by
    rintro ⟨b', _ | e⟩ hb
    · exact hb
    · exact hb
  unfold Builder.build
  cases htt : b.ttype <;> apply key
  · exact b.buildNormal_sameKind item content
  · simp only [Builder.buildPeriodic]
    split
    · exact .refl b
    · rename_i pt hpt
      split
      · exact ⟨rfl, Iff.rfl, by simp [hpt], Iff.rfl⟩
      · exact b.buildNormal_sameKind _ content

/-- A successful end of transaction leaves no transaction open. -/
theorem endTransaction_idle (H : Handlers σ) (st : PState σ) (hs : st.builder.Shape) :
    Keeps (fun st => st.builder.Idle) (fun _ => True) (endTransaction H st) := by
  refine ⟨trivial, ?_⟩
  unfold endTransaction
  rcases hs with h | ⟨h1, h2, h3, h4⟩ | ⟨h1, h2, h3, h4⟩
  · obtain ⟨i1, i2, i3⟩ := h
    cases htt : st.builder.ttype <;> simp only [i1, i2] <;> exact fun _ => ⟨i1, i2, i3⟩
  · rw [h1]
    simp only
    cases ht : st.builder.transaction with
    | none => exact absurd ht h2
    | some t =>
      simp only
      split
      · simp
      · rcases callHandler_cases H.th (endNormalTransaction st.builder.current false t).1
          { st with builder := { st.builder with transaction := some (endNormalTransaction st.builder.current false t).1 } }
          with ⟨f, h⟩ | ⟨hd, file, _, h⟩
        · rw [h]; cases f
          · intro _; exact ⟨rfl, h3, rfl⟩
          · simp
        · rw [h]
          generalize (hd _ _ file).2 = f
          cases f
          · intro _; exact ⟨rfl, h3, rfl⟩
          · simp
  · rw [h1]
    simp only
    cases ht : st.builder.periodic with
    | none => exact absurd ht h3
    | some pt =>
      simp only
      split
      · simp
      · generalize endNormalTransaction st.builder.current (decide (pt.period.interval = PeriodType.none)) pt.transaction = r
        rcases callHandler_cases H.ph { pt with transaction := r.1 }
          { st with builder := { st.builder with periodic := some { pt with transaction := r.1 } } }
          with ⟨f, h⟩ | ⟨hd, file, _, h⟩
        · rw [h]; cases f
          · intro _; exact ⟨h2, rfl, rfl⟩
          · simp
        · rw [h]
          generalize (hd _ _ file).2 = f
          cases f
          · intro _; exact ⟨h2, rfl, rfl⟩
          · simp

theorem endTransaction_of_idle (H : Handlers σ) (st : PState σ) (h : st.builder.Idle) :
    endTransaction H st = (st, none) := by
  obtain ⟨i1, i2, i3⟩ := h
  unfold endTransaction
  cases htt : st.builder.ttype <;> simp only [i1, i2]

theorem begin_shape {b : Builder} (h : b.Idle) (t : TransactionType) : (b.begin t).Shape := by
  obtain ⟨i1, i2, i3⟩ := h
  cases t
  · exact Or.inr (Or.inl ⟨rfl, by simp [Builder.begin], i2, by simp [Builder.begin]⟩)
  · exact Or.inr (Or.inr ⟨rfl, i1, by simp [Builder.begin], by simp [Builder.begin]⟩)

/-- The shape of the builder is an invariant of parsing. -/
theorem shape_inv (H : Handlers σ) :
    ParserInv H (fun st => st.builder.Shape) (fun st => st.builder.Idle) (fun _ => True) where
  weak := fun _ _ => trivial
  idle := fun _ h => Or.inl h
  files := fun _ _ h => h
  ended := fun st h => endTransaction_idle H st h
  begun := fun _ t h => begin_shape h t
  built := fun st item content h => ⟨trivial, fun _ => (st.builder.build_sameKind item content).shape h⟩

/-- Ending a transaction twice is ending it once. -/
theorem endTransaction_twice (H : Handlers σ) (st : PState σ) (hs : st.builder.Shape) :
    (endTransaction H st).andThen (endTransaction H) = endTransaction H st := by
  have := (endTransaction_idle H st hs).2
  generalize endTransaction H st = r at this
  obtain ⟨st', _ | e⟩ := r
  · exact endTransaction_of_idle H st' (this rfl)
  · rfl

/-- After a header item the previous contents of an idle builder do not matter. -/
theorem begin_build_idle {b b' : Builder} (h : b.Idle) (h' : b'.Idle) (t : TransactionType) (item : ItemType)
    (hitem : (t = .normal ∧ item = .dateItem) ∨ (t = .periodic ∧ item = .periodItem)) (content : Str) :
    (∃ f, (b.begin t).build item content = ((b.begin t), some f) ∧ (b'.begin t).build item content = ((b'.begin t), some f)) ∨
      (b.begin t).build item content = (b'.begin t).build item content ∧ ((b.begin t).build item content).2 = none := by
  obtain ⟨i1, i2, i3⟩ := h
  obtain ⟨j1, j2, j3⟩ := h'
  obtain ⟨tt, tr, pe, cu, pv⟩ := b
  obtain ⟨tt', tr', pe', cu', pv'⟩ := b'
  simp only at i1 i2 i3 j1 j2 j3
  subst i1 i2 i3 j1 j2 j3
  rcases hitem with ⟨rfl, rfl⟩ | ⟨rfl, rfl⟩
  · simp only [Builder.begin, Builder.build, Builder.buildNormal]
    cases parseDate content with
    | error f => exact Or.inl ⟨f, rfl, rfl⟩
    | ok d => exact Or.inr ⟨rfl, rfl⟩
  · exact Or.inr ⟨rfl, rfl⟩

/-- The items that do not need an open transaction. -/
def ItemType.structural : ItemType → Bool
  | .emptyLineItem | .eofItem | .includeItem | .dateItem | .periodItem => true
  | _ => false

/-- An idle builder refuses everything else. -/
theorem build_idle_fails {b : Builder} (h : b.Idle) (item : ItemType) (hi : item.structural = false) (content : Str) :
    ∃ f, (b.build item content).2 = some f := by
  obtain ⟨i1, i2, i3⟩ := h
  have hn : ∃ f, (b.buildNormal item content).2 = some f := by
    have ht : b.target = none := by
      unfold Builder.target; cases b.ttype <;> simp [i1, i2]
    cases item <;> simp only [ItemType.structural, Bool.true_eq_false] at hi
    case transactionHeaderCommentItem => simp [Builder.buildNormal, i1]
    case commentItem => simp [Builder.buildNormal, i3]
    case stateItem =>
      simp only [Builder.buildNormal, ht]
      split
      · exact ⟨_, rfl⟩
      · split <;> exact ⟨_, rfl⟩
    case payeeItem =>
      simp only [Builder.buildNormal, ht]
      split <;> exact ⟨_, rfl⟩
    case accountItem =>
      simp only [Builder.buildNormal, i3]
      split <;> exact ⟨_, rfl⟩
    case commodityItem =>
      simp only [Builder.buildNormal, i3]
      split <;> exact ⟨_, rfl⟩
    case amountItem =>
      simp only [Builder.buildNormal, i3]
      split <;> exact ⟨_, rfl⟩
  have key : ∀ r : Step Builder, (∃ f, r.2 = some f) →
      ∃ f, (r.andThen fun b => ({ b with prev := some item }, none)).2 = some f := by
    rintro ⟨b', _ | e⟩ ⟨f, hf⟩
    · cases hf
    · exact ⟨e, rfl⟩
  unfold Builder.build
  cases b.ttype <;> apply key
  · exact hn
  · simp [Builder.buildPeriodic, i2]

end Gledger
