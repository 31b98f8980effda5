import Verif.Lemmas.Lines
import Verif.Model.Parser

/-! Relating two runs of the parser. -/

namespace Gledger

variable {S T : Type}

/-- Two steps end the same way: both succeed in states related by `R`, or both fail, in states related by `G`
and with failures related by `F`. -/
def StepRel (R G : S → T → Prop) (F : Failure → Failure → Prop) (a : Step S) (b : Step T) : Prop :=
  (a.2 = none ∧ b.2 = none ∧ R a.1 b.1) ∨ ∃ f g, a.2 = some f ∧ b.2 = some g ∧ G a.1 b.1 ∧ F f g

theorem StepRel.ok {R G : S → T → Prop} {F : Failure → Failure → Prop} {s : S} {t : T} (h : R s t) :
    StepRel R G F (s, none) (t, none) := Or.inl ⟨rfl, rfl, h⟩

theorem StepRel.fail {R G : S → T → Prop} {F : Failure → Failure → Prop} {s : S} {t : T} {f g : Failure}
    (h : G s t) (hf : F f g) : StepRel R G F (s, some f) (t, some g) := Or.inr ⟨f, g, rfl, rfl, h, hf⟩

theorem StepRel.andThen {R R' G : S → T → Prop} {F : Failure → Failure → Prop} {a : Step S} {b : Step T}
    {f : S → Step S} {g : T → Step T} (h : StepRel R G F a b)
    (hf : ∀ s t, R s t → StepRel R' G F (f s) (g t)) : StepRel R' G F (a.andThen f) (b.andThen g) := by
  obtain ⟨s, x⟩ := a
  obtain ⟨t, y⟩ := b
  rcases h with ⟨h1, h2, h3⟩ | ⟨e, e', h1, h2, h3, h4⟩ <;> simp only at h1 h2 <;> subst h1 <;> subst h2
  · exact hf s t h3
  · exact StepRel.fail h3 h4

theorem StepRel.wrap {R G : S → T → Prop} {F : Failure → Failure → Prop} {a : Step S} {b : Step T} {w w' : Err → Err}
    (h : StepRel R G F a b) (hw : ∀ f g, F f g → F (f.wrap w) (g.wrap w')) :
    StepRel R G F (a.wrap w) (b.wrap w') := by
  obtain ⟨s, x⟩ := a
  obtain ⟨t, y⟩ := b
  rcases h with ⟨h1, h2, h3⟩ | ⟨e, e', h1, h2, h3, h4⟩ <;> simp only at h1 h2 <;> subst h1 <;> subst h2
  · exact StepRel.ok h3
  · exact StepRel.fail h3 (hw _ _ h4)

theorem StepRel.wrapLeft {R G : S → T → Prop} {F : Failure → Failure → Prop} {a : Step S} {b : Step T} {w : Err → Err}
    (h : StepRel R G F a b) (hw : ∀ f g, F f g → F (f.wrap w) g) : StepRel R G F (a.wrap w) b := by
  obtain ⟨s, x⟩ := a
  obtain ⟨t, y⟩ := b
  rcases h with ⟨h1, h2, h3⟩ | ⟨e, e', h1, h2, h3, h4⟩ <;> simp only at h1 h2 <;> subst h1 <;> subst h2
  · exact StepRel.ok h3
  · exact StepRel.fail h3 (hw _ _ h4)

theorem StepRel.mono {R R' G G' : S → T → Prop} {F F' : Failure → Failure → Prop} {a : Step S} {b : Step T}
    (h : StepRel R G F a b) (h1 : ∀ s t, R s t → R' s t) (h2 : ∀ s t, G s t → G' s t)
    (h3 : ∀ f g, F f g → F' f g) : StepRel R' G' F' a b := by
  rcases h with ⟨a1, a2, a3⟩ | ⟨e, e', a1, a2, a3, a4⟩
  · exact Or.inl ⟨a1, a2, h1 _ _ a3⟩
  · exact Or.inr ⟨e, e', a1, a2, h2 _ _ a3, h3 _ _ a4⟩

theorem StepRel.refl {a : Step S} {F : Failure → Failure → Prop} (hF : ∀ f, F f f) : StepRel Eq Eq F a a := by
  obtain ⟨s, _ | e⟩ := a
  · exact StepRel.ok rfl
  · exact StepRel.fail rfl (hF e)

/-- What a relation between failures must be stable under, the line numbers being free. -/
structure FailRel (F : Failure → Failure → Prop) : Prop where
  refl : ∀ f, F f f
  atLine : ∀ f g h n m, F f g → F (f.wrap (.atLine h n)) (g.wrap (.atLine h m))
  errorAt : ∀ f g, F f g → F (f.wrap .errorAt) (g.wrap .errorAt)
  parsingDate : ∀ f g, F f g → F (f.wrap .parsingDate) (g.wrap .parsingDate)
  parsingPeriod : ∀ f g, F f g → F (f.wrap .parsingPeriod) (g.wrap .parsingPeriod)

theorem FailRel.unnumbered : FailRel fun f g => f.unnumbered = g.unnumbered where
  refl := fun _ => rfl
  atLine := by
    rintro (f | f | f) (g | g | g) h n m <;> simp [Failure.unnumbered, Failure.wrap, Err.unnumbered]
  errorAt := by
    rintro (f | f | f) (g | g | g) <;> simp [Failure.unnumbered, Failure.wrap, Err.unnumbered]
  parsingDate := by
    rintro (f | f | f) (g | g | g) <;> simp [Failure.unnumbered, Failure.wrap, Err.unnumbered]
  parsingPeriod := by
    rintro (f | f | f) (g | g | g) <;> simp [Failure.unnumbered, Failure.wrap, Err.unnumbered]

theorem FailRel.trivial : FailRel fun _ _ => True := ⟨by simp, by simp, by simp, by simp, by simp⟩

theorem FailRel.core : FailRel fun f g => f.core = g.core where
  refl := fun _ => rfl
  atLine := by
    rintro (f | f | f) (g | g | g) h n m <;> simp [Failure.core, Failure.wrap, Err.core]
  errorAt := by
    rintro (f | f | f) (g | g | g) <;> simp [Failure.core, Failure.wrap, Err.core]
  parsingDate := by
    rintro (f | f | f) (g | g | g) <;> simp [Failure.core, Failure.wrap, Err.core]
  parsingPeriod := by
    rintro (f | f | f) (g | g | g) <;> simp [Failure.core, Failure.wrap, Err.core]

theorem runItems_rel {R G : S → T → Prop} {F : Failure → Failure → Prop}
    {cb : ItemParser S} {cb' : ItemParser T}
    (is : List (ItemType × Str))
    (hcb : ∀ i ∈ is, ∀ s t, R s t → StepRel R G F (cb i.1 i.2 s) (cb' i.1 i.2 t)) :
    ∀ s t, R s t → StepRel R G F (runItems cb is s) (runItems cb' is t) := by
  induction is with
  | nil => intro s t h; exact StepRel.ok h
  | cons i is ih =>
    intro s t h
    exact (hcb i (by simp) s t h).andThen (ih fun j hj => hcb j (by simp [hj]))

theorem runLine_rel {R G : S → T → Prop} {F : Failure → Failure → Prop} (hRG : ∀ s t, R s t → G s t)
    (hF : ∀ f, F f f) {cb : ItemParser S} {cb' : ItemParser T} (li : LineItems)
    (hcb : ∀ i ∈ li.items, ∀ s t, R s t → StepRel R G F (cb i.1 i.2 s) (cb' i.1 i.2 t))
    (s : S) (t : T) (h : R s t) : StepRel R G F (runLine cb li s) (runLine cb' li t) := by
  refine (runItems_rel li.items hcb s t h).andThen fun s t h => ?_
  cases li.err with
  | none => exact StepRel.ok h
  | some e => exact StepRel.fail (hRG s t h) (hF _)

/-- Two callbacks that treat the items of the lines alike treat the lines alike. -/
theorem feedLines_rel [Unicode] {R G : S → T → Prop} {F : Failure → Failure → Prop} (hF : FailRel F)
    (hRG : ∀ s t, R s t → G s t) {cb : ItemParser S} {cb' : ItemParser T} (hint : Str) (lines : List RawLine)
    (hcb : ∀ b, RawLine.line b ∈ lines → ∀ i ∈ (lineItems hint (runes b)).items, ∀ s t, R s t →
      StepRel R G F (cb i.1 i.2 s) (cb' i.1 i.2 t)) :
    ∀ (n m : Nat) (s : S) (t : T), R s t →
      StepRel R G F (feedLines cb hint n lines s) (feedLines cb' hint m lines t) := by
  induction lines with
  | nil => intro n m s t h; exact StepRel.ok h
  | cons l ls ih =>
    intro n m s t h
    cases l with
    | tooLong => exact StepRel.fail (hRG s t h) (hF.refl _)
    | line b =>
      refine ((runLine_rel hRG hF.refl _ (hcb b (by simp)) s t h).wrap
        fun f g hfg => hF.atLine f g hint n m hfg).andThen fun s t h => ?_
      exact ih (fun b' hb' => hcb b' (by simp [hb'])) _ _ s t h

theorem lexLoop_rel [Unicode] {R G : S → T → Prop} {F : Failure → Failure → Prop} (hF : FailRel F)
    (hRG : ∀ s t, R s t → G s t) {cb : ItemParser S} {cb' : ItemParser T} (hint : Str) (lines : List RawLine)
    (hcb : ∀ i c s t, R s t → StepRel R G F (cb i c s) (cb' i c t))
    (n m : Nat) (s : S) (t : T) (h : R s t) :
    StepRel R G F (lexLoop cb hint n lines s) (lexLoop cb' hint m lines t) := by
  rw [lexLoop_eq, lexLoop_eq]
  exact (feedLines_rel hF hRG hint lines (fun _ _ i _ => hcb i.1 i.2) n m s t h).andThen
    fun s t h => hcb _ _ s t h

/-- Shifting line numbers. -/
theorem lexLoop_shift [Unicode] {F : Failure → Failure → Prop} (hF : FailRel F) (cb : ItemParser S) (hint : Str)
    (lines : List RawLine) (n m : Nat) (s : S) :
    StepRel Eq Eq F (lexLoop cb hint n lines s) (lexLoop cb hint m lines s) :=
  lexLoop_rel hF (fun _ _ h => h) hint lines (fun i c s t h => by subst h; exact StepRel.refl hF.refl) n m s s rfl

theorem feedLines_shift [Unicode] {F : Failure → Failure → Prop} (hF : FailRel F) (cb : ItemParser S) (hint : Str)
    (lines : List RawLine) (n m : Nat) (s : S) :
    StepRel Eq Eq F (feedLines cb hint n lines s) (feedLines cb hint m lines s) :=
  feedLines_rel hF (fun _ _ h => h) hint lines (fun _ _ i _ s t h => by subst h; exact StepRel.refl hF.refl) n m s s rfl

theorem StepRel.eq_user {F : Failure → Failure → Prop} {a b : Step S} (h : StepRel Eq Eq F a b) :
    a.1 = b.1 ∧ (a.2 = none ↔ b.2 = none) := by
  rcases h with ⟨h1, h2, h3⟩ | ⟨f, g, h1, h2, h3, _⟩
  · exact ⟨h3, by simp [h1, h2]⟩
  · exact ⟨h3, by simp [h1, h2]⟩

theorem StepRel.unnumbered {R G : S → T → Prop} {a : Step S} {b : Step T}
    (h : StepRel R G (fun f g => f.unnumbered = g.unnumbered) a b) :
    a.2.map Failure.unnumbered = b.2.map Failure.unnumbered := by
  rcases h with ⟨h1, h2, _⟩ | ⟨f, g, h1, h2, _, h4⟩ <;> simp_all

end Gledger
