import Verif.Lemmas.Sim

/-! The log of handler calls: starting with a non-empty log, dropping the log, ignoring file names. -/

namespace Gledger

variable {σ : Type}

/-- A log that already contains `pre` just grows behind it. -/
theorem UserSim.prefix (H : Handlers σ) (F : Failure → Failure → Prop) (hF : FailRel F) (pre : List Call) :
    UserSim True (logged H) (logged H) F
      (fun x y => x.1 = y.1 ∧ x.2.1 = y.2.1 ∧ x.2.2 = pre ++ y.2.2)
      (fun u v => u.1 = v.1 ∧ u.2 = pre ++ v.2) where
  weak := fun x y h => h.2
  th := by
    rintro ⟨b, fl, u, l⟩ ⟨b', fl', u', l'⟩ t ⟨h1, h2, h3⟩
    simp only at h1 h2 h3
    subst h1 h2 h3
    unfold callHandler logged
    cases H.th with
    | none => exact StepRel.ok ⟨⟨rfl, rfl, rfl⟩, rfl, rfl⟩
    | some hd =>
      simp only [Option.map_some]
      cases fl.getLast? with
      | none => exact StepRel.fail ⟨rfl, rfl⟩ (hF.refl _)
      | some f =>
        simp only
        cases (hd u t f).2
        · exact StepRel.ok ⟨⟨rfl, rfl, by simp⟩, rfl, rfl⟩
        · exact StepRel.fail ⟨rfl, by simp⟩ (hF.refl _)
  ph := by
    rintro ⟨b, fl, u, l⟩ ⟨b', fl', u', l'⟩ t ⟨h1, h2, h3⟩
    simp only at h1 h2 h3
    subst h1 h2 h3
    unfold callHandler logged
    cases H.ph with
    | none => exact StepRel.ok ⟨⟨rfl, rfl, rfl⟩, rfl, rfl⟩
    | some hd =>
      simp only [Option.map_some]
      cases fl.getLast? with
      | none => exact StepRel.fail ⟨rfl, rfl⟩ (hF.refl _)
      | some f =>
        simp only
        cases (hd u t f).2
        · exact StepRel.ok ⟨⟨rfl, rfl, by simp⟩, rfl, rfl⟩
        · exact StepRel.fail ⟨rfl, by simp⟩ (hF.refl _)
  push := fun _ x y p h => ⟨by simp [h.1], h.2⟩
  pop := fun _ x y h => ⟨by simp [h.1], h.2⟩

/-- For handlers that do not look at file names the journal files do not matter, as long as there is one. -/
theorem UserSim.blind (H : Handlers σ) (hb : FileBlind H) (F : Failure → Failure → Prop) (hF : FailRel F) :
    UserSim True (logged H) (logged H) F
      (fun x y => x.2.1 = y.2.1 ∧ x.2.2.map Call.unfiled = y.2.2.map Call.unfiled ∧ x.1 ≠ [] ∧ y.1 ≠ [])
      (fun u v => u.1 = v.1 ∧ u.2.map Call.unfiled = v.2.map Call.unfiled) where
  weak := fun x y h => ⟨h.1, h.2.1⟩
  th := by
    rintro ⟨b, fl, u, l⟩ ⟨b', fl', u', l'⟩ t ⟨h1, h1', h2, h3⟩
    simp only at h1 h1' h2 h3
    subst h1
    unfold callHandler logged
    cases hth : H.th with
    | none => exact StepRel.ok ⟨⟨rfl, h1', h2, h3⟩, rfl, rfl⟩
    | some hd =>
      simp only [Option.map_some]
      rw [List.getLast?_eq_getLast_of_ne_nil h2, List.getLast?_eq_getLast_of_ne_nil h3]
      simp only
      rw [hb.1 hd hth u t (fl.getLast h2) (fl'.getLast h3)]
      cases (hd u t (fl'.getLast h3)).2
      · exact StepRel.ok ⟨⟨rfl, by simp [h1', Call.unfiled], h2, h3⟩, rfl, rfl⟩
      · exact StepRel.fail ⟨rfl, by simp [h1', Call.unfiled]⟩ (hF.refl _)
  ph := by
    rintro ⟨b, fl, u, l⟩ ⟨b', fl', u', l'⟩ t ⟨h1, h1', h2, h3⟩
    simp only at h1 h1' h2 h3
    subst h1
    unfold callHandler logged
    cases hth : H.ph with
    | none => exact StepRel.ok ⟨⟨rfl, h1', h2, h3⟩, rfl, rfl⟩
    | some hd =>
      simp only [Option.map_some]
      rw [List.getLast?_eq_getLast_of_ne_nil h2, List.getLast?_eq_getLast_of_ne_nil h3]
      simp only
      rw [hb.2 hd hth u t (fl.getLast h2) (fl'.getLast h3)]
      cases (hd u t (fl'.getLast h3)).2
      · exact StepRel.ok ⟨⟨rfl, by simp [h1', Call.unfiled], h2, h3⟩, rfl, rfl⟩
      · exact StepRel.fail ⟨rfl, by simp [h1', Call.unfiled]⟩ (hF.refl _)
  push := fun _ x y p h => ⟨h.1, h.2.1, by simp, by simp⟩
  pop := fun _ x y h => ⟨h.1, h.2.1, by simpa using h.2.2.1, by simpa using h.2.2.2⟩

/-- Logging changes nothing but the log. -/
theorem UserSim.unlog (H : Handlers σ) (F : Failure → Failure → Prop) (hF : FailRel F) :
    UserSim True (logged H) H F (fun x y => x.1 = y.1 ∧ x.2.1 = y.2) (fun u v => u.1 = v) where
  weak := fun x y h => h.2
  th := by
    rintro ⟨b, fl, u, l⟩ ⟨b', fl', u'⟩ t ⟨h1, h2⟩
    simp only at h1 h2
    subst h1 h2
    unfold callHandler logged
    cases H.th with
    | none => exact StepRel.ok ⟨⟨rfl, rfl⟩, rfl, rfl⟩
    | some hd =>
      simp only [Option.map_some]
      cases fl.getLast? with
      | none => exact StepRel.fail rfl (hF.refl _)
      | some f =>
        simp only
        cases (hd u t f).2
        · exact StepRel.ok ⟨⟨rfl, rfl⟩, rfl, rfl⟩
        · exact StepRel.fail rfl (hF.refl _)
  ph := by
    rintro ⟨b, fl, u, l⟩ ⟨b', fl', u'⟩ t ⟨h1, h2⟩
    simp only at h1 h2
    subst h1 h2
    unfold callHandler logged
    cases H.ph with
    | none => exact StepRel.ok ⟨⟨rfl, rfl⟩, rfl, rfl⟩
    | some hd =>
      simp only [Option.map_some]
      cases fl.getLast? with
      | none => exact StepRel.fail rfl (hF.refl _)
      | some f =>
        simp only
        cases (hd u t f).2
        · exact StepRel.ok ⟨⟨rfl, rfl⟩, rfl, rfl⟩
        · exact StepRel.fail rfl (hF.refl _)
  push := fun _ x y p h => ⟨by simp [h.1], h.2⟩
  pop := fun _ x y h => ⟨by simp [h.1], h.2⟩

/-- Only the last journal file matters, as long as nothing is included. -/
theorem UserSim.lastFile (H : Handlers σ) (F : Failure → Failure → Prop) (hF : FailRel F) (fl fl' : List Str)
    (h2 : fl.getLast? = fl'.getLast?) :
    UserSim False H H F (fun x y => x.2 = y.2 ∧ x.1 = fl ∧ y.1 = fl') Eq where
  weak := fun x y h => h.1
  th := by
    rintro ⟨b, gl, u⟩ ⟨b', gl', u'⟩ t ⟨h1, h3, h4⟩
    simp only at h1 h3 h4
    subst h1 h3 h4
    unfold callHandler
    simp only [h2]
    cases H.th with
    | none => exact StepRel.ok ⟨⟨rfl, rfl, rfl⟩, rfl, rfl⟩
    | some hd =>
      cases gl'.getLast? with
      | none => exact StepRel.fail rfl (hF.refl _)
      | some f =>
        simp only
        cases (hd u t f).2
        · exact StepRel.ok ⟨⟨rfl, rfl, rfl⟩, rfl, rfl⟩
        · exact StepRel.fail rfl (hF.refl _)
  ph := by
    rintro ⟨b, gl, u⟩ ⟨b', gl', u'⟩ t ⟨h1, h3, h4⟩
    simp only at h1 h3 h4
    subst h1 h3 h4
    unfold callHandler
    simp only [h2]
    cases H.ph with
    | none => exact StepRel.ok ⟨⟨rfl, rfl, rfl⟩, rfl, rfl⟩
    | some hd =>
      cases gl'.getLast? with
      | none => exact StepRel.fail rfl (hF.refl _)
      | some f =>
        simp only
        cases (hd u t f).2
        · exact StepRel.ok ⟨⟨rfl, rfl, rfl⟩, rfl, rfl⟩
        · exact StepRel.fail rfl (hF.refl _)
  push := fun h => h.elim
  pop := fun h => h.elim

/-- Related callbacks for files with different names, on lines that read the same under both names. -/
theorem feedLines_rel2 {S T : Type} [Unicode] {R G : S → T → Prop} {F : Failure → Failure → Prop} (hF : ∀ f, F f f)
    (hw : ∀ f g h h' n m, F f g → F (f.wrap (.atLine h n)) (g.wrap (.atLine h' m)))
    (hRG : ∀ s t, R s t → G s t) {cb : ItemParser S} {cb' : ItemParser T} (h h' : Str) (lines : List RawLine)
    (hl : ∀ b, RawLine.line b ∈ lines → lineItems h (runes b) = lineItems h' (runes b))
    (hcb : ∀ b, RawLine.line b ∈ lines → ∀ i ∈ (lineItems h (runes b)).items, ∀ s t, R s t →
      StepRel R G F (cb i.1 i.2 s) (cb' i.1 i.2 t)) :
    ∀ (n m : Nat) (s : S) (t : T), R s t →
      StepRel R G F (feedLines cb h n lines s) (feedLines cb' h' m lines t) := by
  induction lines with
  | nil => intro n m s t h; exact StepRel.ok h
  | cons l ls ih =>
    intro n m s t hs
    cases l with
    | tooLong => exact StepRel.fail (hRG s t hs) (hF _)
    | line b =>
      rw [feedLines, feedLines, ← hl b (by simp)]
      refine ((runLine_rel hRG hF _ (hcb b (by simp)) s t hs).wrap
        fun f g hfg => hw f g h h' n m hfg).andThen fun s t hs => ?_
      exact ih (fun b' hb' => hl b' (by simp [hb'])) (fun b' hb' => hcb b' (by simp [hb'])) _ _ s t hs

end Gledger
