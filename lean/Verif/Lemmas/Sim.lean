import Verif.Lemmas.Idle

/-! A simulation theorem for the parser: related states give related results. -/

namespace Gledger

variable {σ τ : Type}

/-- A relation `FU` between journal files and user states, kept by the handlers and, if `Inc`, by includes. -/
structure UserSim (Inc : Prop) (H : Handlers σ) (H' : Handlers τ) (F : Failure → Failure → Prop)
    (FU : List Str × σ → List Str × τ → Prop) (GU : σ → τ → Prop) : Prop where
  weak : ∀ x y, FU x y → GU x.2 y.2
  th : ∀ st st' t, FU (st.files, st.user) (st'.files, st'.user) →
    StepRel (fun s s' => FU (s.files, s.user) (s'.files, s'.user) ∧ s.builder = st.builder ∧ s'.builder = st'.builder)
      (fun s s' => GU s.user s'.user) F (callHandler H.th t st) (callHandler H'.th t st')
  ph : ∀ st st' t, FU (st.files, st.user) (st'.files, st'.user) →
    StepRel (fun s s' => FU (s.files, s.user) (s'.files, s'.user) ∧ s.builder = st.builder ∧ s'.builder = st'.builder)
      (fun s s' => GU s.user s'.user) F (callHandler H.ph t st) (callHandler H'.ph t st')
  push : Inc → ∀ x y p, FU x y → FU (x.1 ++ [p], x.2) (y.1 ++ [p], y.2)
  pop : Inc → ∀ x y, FU x y → FU (x.1.take 1, x.2) (y.1.take 1, y.2)

/-- Related parser states: related users, and the same builder, or (if failures need not agree) two builders
without an open transaction. -/
def SimState (Any : Prop) (FU : List Str × σ → List Str × τ → Prop) (s : PState σ) (t : PState τ) : Prop :=
  FU (s.files, s.user) (t.files, t.user) ∧ (s.builder = t.builder ∨ (Any ∧ s.builder.Idle ∧ t.builder.Idle))

variable {H : Handlers σ} {H' : Handlers τ} {F : Failure → Failure → Prop}
  {FU : List Str × σ → List Str × τ → Prop} {GU : σ → τ → Prop} {Any Inc : Prop}

theorem endTransaction_rel (hF : FailRel F) (hu : UserSim Inc H H' F FU GU) (st : PState σ) (st' : PState τ)
    (h : SimState Any FU st st') (hs : st.builder.Shape) :
    StepRel (fun s t => SimState Any FU s t ∧ s.builder.Idle ∧ t.builder.Idle) (fun s t => GU s.user t.user) F
      (endTransaction H st) (endTransaction H' st') := by
  obtain ⟨h1, h2 | ⟨ha, h2, h3⟩⟩ := h
  · have hs' : st'.builder.Shape := h2 ▸ hs
    have key : StepRel (fun s t => SimState Any FU s t) (fun s t => GU s.user t.user) F
        (endTransaction H st) (endTransaction H' st') := by
      unfold endTransaction
      rw [← h2]
      cases htt : st.builder.ttype with
      | normal =>
        simp only
        cases ht : st.builder.transaction with
        | none => exact StepRel.ok ⟨h1, Or.inl h2⟩
        | some t =>
          simp only
          split
          · exact StepRel.fail (hu.weak _ _ h1) (hF.refl _)
          · refine StepRel.andThen (hu.th _ _ _ (by exact h1)) fun s s' hss => ?_
            refine StepRel.ok ⟨hss.1, Or.inl ?_⟩
            simp only [hss.2.1, hss.2.2]
      | periodic =>
        simp only
        cases ht : st.builder.periodic with
        | none => exact StepRel.ok ⟨h1, Or.inl h2⟩
        | some t =>
          simp only
          split
          · exact StepRel.fail (hu.weak _ _ h1) (hF.refl _)
          · refine StepRel.andThen (hu.ph _ _ _ (by exact h1)) fun s s' hss => ?_
            refine StepRel.ok ⟨hss.1, Or.inl ?_⟩
            simp only [hss.2.1, hss.2.2]
    rcases key with ⟨k1, k2, k3⟩ | k
    · exact Or.inl ⟨k1, k2, k3, (endTransaction_idle H st hs).2 k1, (endTransaction_idle H' st' hs').2 k2⟩
    · exact Or.inr k
  · rw [endTransaction_of_idle H st h2, endTransaction_of_idle H' st' h3]
    exact StepRel.ok ⟨⟨h1, Or.inr ⟨ha, h2, h3⟩⟩, h2, h3⟩

/-- Related states with the shape invariant. -/
def SimShape (Any : Prop) (FU : List Str × σ → List Str × τ → Prop) (s : PState σ) (t : PState τ) : Prop :=
  SimState Any FU s t ∧ s.builder.Shape

theorem StepRel.of_eq_none {S T : Type} {R G : S → T → Prop} {F : Failure → Failure → Prop} {a : Step S} {b : Step T}
    (h1 : a.2 = none) (h2 : b.2 = none) (h : R a.1 b.1) : StepRel R G F a b := Or.inl ⟨h1, h2, h⟩

theorem build_rel (hF : FailRel F) (hA : Any → ∀ f g, F f g) (hu : UserSim Inc H H' F FU GU) (st : PState σ) (st' : PState τ)
    (h : SimShape Any FU st st') (item : ItemType) (hi : item.structural = false) (content : Str) :
    StepRel (SimShape Any FU) (fun s t => GU s.user t.user) F
      (liftBuilder st (st.builder.build item content)) (liftBuilder st' (st'.builder.build item content)) := by
  obtain ⟨⟨h1, h2 | ⟨ha, h2, h3⟩⟩, hs⟩ := h
  · rw [← h2]
    have hk := (st.builder.build_sameKind item content).shape hs
    generalize st.builder.build item content = r at hk
    obtain ⟨b, _ | f⟩ := r
    · exact StepRel.ok ⟨⟨h1, Or.inl rfl⟩, hk⟩
    · exact StepRel.fail (hu.weak _ _ h1) (hF.refl _)
  · obtain ⟨f, hf⟩ := build_idle_fails h2 item hi content
    obtain ⟨g, hg⟩ := build_idle_fails h3 item hi content
    exact Or.inr ⟨f, g, hf, hg, hu.weak _ _ h1, hA ha f g⟩

theorem header_rel (hF : FailRel F) (hu : UserSim Inc H H' F FU GU) (st : PState σ) (st' : PState τ)
    (h : SimState Any FU st st' ∧ st.builder.Idle ∧ st'.builder.Idle) (t : TransactionType) (item : ItemType)
    (hitem : (t = .normal ∧ item = .dateItem) ∨ (t = .periodic ∧ item = .periodItem)) (content : Str) :
    StepRel (SimShape Any FU) (fun s t => GU s.user t.user) F
      (liftBuilder { st with builder := st.builder.begin t } ((st.builder.begin t).build item content))
      (liftBuilder { st' with builder := st'.builder.begin t } ((st'.builder.begin t).build item content)) := by
  obtain ⟨⟨h1, _⟩, h2, h3⟩ := h
  have hk := ((st.builder.begin t).build_sameKind item content).shape (begin_shape h2 t)
  rcases begin_build_idle h2 h3 t item hitem content with ⟨f, hf1, hf2⟩ | ⟨he, hn⟩
  · rw [hf1, hf2]
    exact StepRel.fail (hu.weak _ _ h1) (hF.refl _)
  · rw [← he]
    generalize (st.builder.begin t).build item content = r at hk hn
    obtain ⟨b, _ | f⟩ := r
    · exact StepRel.ok ⟨⟨h1, Or.inl rfl⟩, hk⟩
    · cases hn

/-- The simulation theorem for items; the limits on open files only matter for includes. -/
theorem parseItem_rel [Unicode] (hF : FailRel F) (hA : Any → ∀ f g, F f g) (hu : UserSim Inc H H' F FU GU)
    (fs : FileSystem) : ∀ (n n' : Nat) (item : ItemType) (_ : (Inc ∧ n = n') ∨ item ≠ .includeItem) (content : Str)
      (st : PState σ) (st' : PState τ), SimShape Any FU st st' →
    StepRel (SimShape Any FU) (fun s t => GU s.user t.user) F
      (parseItem fs H n item content st) (parseItem fs H' n' item content st') := by
  intro n
  induction n with
  | zero =>
    intro n' item hn content st st' h
    cases item
    case includeItem =>
      obtain ⟨hinc, rfl⟩ | hn := hn
      · exact StepRel.fail (hu.weak _ _ h.1.1) (hF.refl _)
      · exact absurd rfl hn
    case dateItem =>
      cases n' <;>
      exact (endTransaction_rel hF hu st st' h.1 h.2).andThen fun s s' hss =>
        (header_rel hF hu s s' hss .normal .dateItem (Or.inl ⟨rfl, rfl⟩) content).wrap hF.parsingDate
    case periodItem =>
      cases n' <;>
      exact (endTransaction_rel hF hu st st' h.1 h.2).andThen fun s s' hss =>
        (header_rel hF hu s s' hss .periodic .periodItem (Or.inr ⟨rfl, rfl⟩) content).wrap hF.parsingPeriod
    case emptyLineItem =>
      cases n' <;>
      exact (endTransaction_rel hF hu st st' h.1 h.2).mono (fun s t h => ⟨h.1, Or.inl h.2.1⟩) (fun _ _ h => h) (fun _ _ h => h)
    case eofItem =>
      cases n' <;>
      exact (endTransaction_rel hF hu st st' h.1 h.2).mono (fun s t h => ⟨h.1, Or.inl h.2.1⟩) (fun _ _ h => h) (fun _ _ h => h)
    all_goals cases n' <;> exact build_rel hF hA hu st st' h _ rfl content
  | succ n ih =>
    intro n' item hn content st st' h
    cases item
    case includeItem =>
      obtain ⟨hinc, rfl⟩ | hn := hn
      · simp only [parseItem]
        cases fs content with
        | none => exact StepRel.fail (hu.weak _ _ h.1.1) (hF.refl _)
        | some bytes =>
          simp only
          refine ((lexLoop_rel (R := SimShape Any FU) hF (fun s t h => hu.weak _ _ h.1.1) content (readLines bytes)
            (fun i c s t h => ih n i (Or.inl ⟨hinc, rfl⟩) c s t h) 1 1 _ _ ?_).wrap hF.errorAt).andThen fun s s' hss => ?_
          · exact ⟨⟨hu.push hinc _ _ _ h.1.1, h.1.2⟩, h.2⟩
          · exact StepRel.ok ⟨⟨hu.pop hinc _ _ hss.1.1, hss.1.2⟩, hss.2⟩
      · exact absurd rfl hn
    case dateItem =>
      cases n' <;>
      exact (endTransaction_rel hF hu st st' h.1 h.2).andThen fun s s' hss =>
        (header_rel hF hu s s' hss .normal .dateItem (Or.inl ⟨rfl, rfl⟩) content).wrap hF.parsingDate
    case periodItem =>
      cases n' <;>
      exact (endTransaction_rel hF hu st st' h.1 h.2).andThen fun s s' hss =>
        (header_rel hF hu s s' hss .periodic .periodItem (Or.inr ⟨rfl, rfl⟩) content).wrap hF.parsingPeriod
    case emptyLineItem =>
      cases n' <;>
      exact (endTransaction_rel hF hu st st' h.1 h.2).mono (fun s t h => ⟨h.1, Or.inl h.2.1⟩) (fun _ _ h => h) (fun _ _ h => h)
    case eofItem =>
      cases n' <;>
      exact (endTransaction_rel hF hu st st' h.1 h.2).mono (fun s t h => ⟨h.1, Or.inl h.2.1⟩) (fun _ _ h => h) (fun _ _ h => h)
    all_goals cases n' <;> exact build_rel hF hA hu st st' h _ rfl content

/-- Equal files and users are simulated by the same handlers. -/
theorem UserSim.eq (H : Handlers σ) (hF : FailRel F) : UserSim True H H F Eq Eq where
  weak := fun x y h => h ▸ rfl
  th := by
    intro st st' t h
    simp only [Prod.mk.injEq] at h
    unfold callHandler
    rw [← h.1, ← h.2]
    cases H.th with
    | none => exact StepRel.ok ⟨by rw [h.1, h.2], rfl, rfl⟩
    | some hd =>
      cases st.files.getLast? with
      | none => exact StepRel.fail h.2 (hF.refl _)
      | some f =>
        simp only
        generalize hd st.user t f = r
        obtain ⟨u, _ | e⟩ := r
        · exact StepRel.ok ⟨rfl, rfl, rfl⟩
        · exact StepRel.fail rfl (hF.refl _)
  ph := by
    intro st st' t h
    simp only [Prod.mk.injEq] at h
    unfold callHandler
    rw [← h.1, ← h.2]
    cases H.ph with
    | none => exact StepRel.ok ⟨by rw [h.1, h.2], rfl, rfl⟩
    | some hd =>
      cases st.files.getLast? with
      | none => exact StepRel.fail h.2 (hF.refl _)
      | some f =>
        simp only
        generalize hd st.user t f = r
        obtain ⟨u, _ | e⟩ := r
        · exact StepRel.ok ⟨rfl, rfl, rfl⟩
        · exact StepRel.fail rfl (hF.refl _)
  push := fun _ x y p h => by rw [h]
  pop := fun _ x y h => by rw [h]

/-- `endTransaction` does not change the journal files. -/
theorem endTransaction_files (H : Handlers σ) (st : PState σ) : (endTransaction H st).1.files = st.files := by
  have key : ∀ {α : Type} (h : Option (σ → α → Str → Step σ)) (a : α) (st : PState σ),
      (callHandler h a st).1.files = st.files := by
    intro α h a st
    rcases callHandler_cases h a st with ⟨f, h⟩ | ⟨hd, file, _, h⟩ <;> rw [h]
  have key2 : ∀ (r : Step (PState σ)) (f : PState σ → Builder),
      (r.andThen fun st => ({ st with builder := f st }, none)).1.files = r.1.files := by
    rintro ⟨s, _ | e⟩ f <;> rfl
  unfold endTransaction
  cases st.builder.ttype with
  | normal =>
    cases st.builder.transaction with
    | none => rfl
    | some t =>
      simp only
      split
      · rfl
      · rw [key2, key]
  | periodic =>
    cases st.builder.periodic with
    | none => rfl
    | some t =>
      simp only
      split
      · rfl
      · rw [key2, key]

/-- The first journal file stays, and between the items of the root file it is the only one. -/
theorem parseItem_files [Unicode] (H : Handlers σ) (fs : FileSystem) (p : Str) : ∀ (n : Nat) (item : ItemType)
    (content : Str) (st : PState σ), st.files.head? = some p →
    Keeps (fun s => s.files.head? = some p ∧ (s.files = st.files ∨ s.files = [p])) (fun _ => True)
      (parseItem fs H n item content st) := by
  have hdr : ∀ (st : PState σ) (tt : TransactionType) (item : ItemType) (content : Str) (w : Err → Err), st.files.head? = some p →
      Keeps (fun s => s.files.head? = some p ∧ (s.files = st.files ∨ s.files = [p])) (fun _ => True)
        ((endTransaction H st).andThen fun st =>
          (liftBuilder { st with builder := st.builder.begin tt } ((st.builder.begin tt).build item content)).wrap w) := by
    intro st tt item content w h
    have he := endTransaction_files H st
    refine Keeps.andThen' (J := fun s => s.files = st.files) ⟨trivial, fun _ => he⟩ fun s hs => ?_
    refine ⟨trivial, fun _ => ?_⟩
    exact ⟨by simp [Step.wrap, liftBuilder, hs, h], Or.inl hs⟩
  have hend : ∀ (st : PState σ), st.files.head? = some p →
      Keeps (fun s => s.files.head? = some p ∧ (s.files = st.files ∨ s.files = [p])) (fun _ => True)
        (endTransaction H st) := by
    intro st h
    exact ⟨trivial, fun _ => by simp only [endTransaction_files]; exact ⟨h, Or.inl trivial⟩⟩
  intro n
  induction n with
  | zero =>
    intro item content st h
    cases item
    case includeItem => exact Keeps.fail trivial
    case dateItem => exact hdr st .normal .dateItem content _ h
    case periodItem => exact hdr st .periodic .periodItem content _ h
    case emptyLineItem => exact hend st h
    case eofItem => exact hend st h
    all_goals exact ⟨trivial, fun _ => ⟨h, Or.inl rfl⟩⟩
  | succ n ih =>
    intro item content st h
    cases item
    case includeItem =>
      simp only [parseItem]
      cases fs content with
      | none => exact Keeps.fail trivial
      | some bytes =>
        simp only
        refine Keeps.andThen' (J := fun s => s.files.head? = some p) (Keeps.wrap ?_) fun s hs => ?_
        · refine lex_keeps (fun _ _ => trivial) (fun i c s hs => ?_) content bytes _ ?_
          · exact ⟨trivial, fun hn => ((ih i c s hs).2 hn).1⟩
          · cases hf : st.files with
            | nil => rw [hf] at h; cases h
            | cons x xs => rw [hf] at h; simpa using h
        · refine ⟨trivial, fun _ => ?_⟩
          cases hf : s.files with
          | nil => rw [hf] at hs; cases hs
          | cons x xs => rw [hf] at hs; simp at hs; simp [hs]
    case dateItem => exact hdr st .normal .dateItem content _ h
    case periodItem => exact hdr st .periodic .periodItem content _ h
    case emptyLineItem => exact hend st h
    case eofItem => exact hend st h
    all_goals exact ⟨trivial, fun _ => ⟨h, Or.inl rfl⟩⟩

theorem feedLines_keeps {S : Type} [Unicode] {I G : S → Prop} (hIG : ∀ s, I s → G s) {cb : ItemParser S}
    (hcb : ∀ i c s, I s → Keeps I G (cb i c s)) (hint : Str) (lines : List RawLine) :
    ∀ (n : Nat) (s : S), I s → Keeps I G (feedLines cb hint n lines s) := by
  induction lines with
  | nil => intro n s hs; exact Keeps.pure hIG hs
  | cons l ls ih =>
    intro n s hs
    cases l with
    | tooLong => exact Keeps.fail (hIG s hs)
    | line b =>
      refine Keeps.andThen (Keeps.wrap ?_) fun s hs => ih _ s hs
      rw [← lexLine_eq]
      exact lexLine_keeps hIG hcb hint b s hs

/-- The states between two lines of the root file. -/
theorem feedLines_root [Unicode] (H : Handlers σ) (fs : FileSystem) (n : Nat) (p : Str) (lines : List RawLine) (m : Nat)
    (st : PState σ) (h1 : st.files = [p]) (h2 : st.builder.Shape) :
    Keeps (fun s => s.files = [p] ∧ s.builder.Shape) (fun _ => True) (feedLines (parseItem fs H n) p m lines st) := by
  refine feedLines_keeps (fun _ _ => trivial) (fun i c s hs => ⟨trivial, fun hn => ⟨?_, ?_⟩⟩) p lines m st ⟨h1, h2⟩
  · have := (parseItem_files H fs p n i c s (by rw [hs.1]; rfl)).2 hn
    rcases this.2 with h | h
    · rw [h, hs.1]
    · exact h
  · exact (parseItem_keeps (shape_inv H) fs n i c s hs.2).2 hn

end Gledger
