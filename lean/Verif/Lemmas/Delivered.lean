import Verif.Lemmas.Calls

/-! Invariants of the builder that use what the lexer can produce, and what they give for delivered calls. -/

namespace Gledger

section Generic

variable {S : Type}

/-- Each item of a line in turn satisfies `L`, given the kind of the one before. -/
def ItemsOk (L : Option ItemType → ItemType → Str → Prop) : Option ItemType → List (ItemType × Str) → Prop
  | _, [] => True
  | pv, i :: is => L pv i.1 i.2 ∧ ItemsOk L (some i.1) is

theorem runItems_keeps_of {I : Option ItemType → S → Prop} {G : S → Prop} (hIG : ∀ pv s, I pv s → G s) (hI : ∀ pv s, I pv s → I none s)
    {cb : ItemParser S} {L : Option ItemType → ItemType → Str → Prop}
    (hcb : ∀ pv i c s, L pv i c → I pv s → Keeps (I (some i)) G (cb i c s)) (is : List (ItemType × Str)) :
    ∀ pv s, ItemsOk L pv is → I pv s → Keeps (I none) G (runItems cb is s) := by
  induction is with
  | nil => intro pv s _ hs; exact Keeps.pure (hIG none) (hI pv s hs)
  | cons i is ih =>
    intro pv s hL hs
    exact (hcb _ _ _ _ hL.1 hs).andThen' fun s hs => ih (some i.1) s hL.2 hs

/-- `L` holds of all items the lexer produces. -/
def Lexed [Unicode] (L : Option ItemType → ItemType → Str → Prop) : Prop :=
  L none .eofItem [] ∧ ∀ hint line, ItemsOk L none (lineItems hint line).items

theorem lex_keeps_of [Unicode] {I : Option ItemType → S → Prop} {G : S → Prop} (hIG : ∀ pv s, I pv s → G s) (hI : ∀ pv s, I pv s → I none s)
    {cb : ItemParser S} {L : Option ItemType → ItemType → Str → Prop} (hL : Lexed L)
    (hcb : ∀ pv i c s, L pv i c → I pv s → Keeps (I (some i)) G (cb i c s)) (hint : Str) (bytes : List UInt8) (s : S) (hs : I none s) :
    Keeps (I none) G (lex cb hint bytes s) := by
  have key : ∀ (lines : List RawLine) (n : Nat) (s : S), I none s → Keeps (I none) G (lexLoop cb hint n lines s) := by
    intro lines
    induction lines with
    | nil =>
      intro n s hs
      have := hcb _ _ _ _ hL.1 hs
      exact ⟨this.1, fun h => hI _ _ (this.2 h)⟩
    | cons l ls ih =>
      intro n s hs
      cases l with
      | tooLong => exact Keeps.fail (hIG _ s hs)
      | line b =>
        have h1 : Keeps (I none) G (lexLine cb hint b s) := by
          rw [lexLine_eq]
          refine (runItems_keeps_of hIG hI hcb _ none s (hL.2 hint (runes b)) hs).andThen fun s hs => ?_
          cases (lineItems hint (runes b)).err with
          | none => exact Keeps.pure (hIG _) hs
          | some e => exact Keeps.fail (hIG _ s hs)
        simp only [lexLoop]
        generalize lexLine cb hint b s = r at h1
        obtain ⟨s', _ | e⟩ := r
        · exact ih _ _ (h1.2 rfl)
        · exact Keeps.fail h1.1
  exact key _ _ _ hs

end Generic

variable {σ : Type}

/-- The builder remembers the last item, if it was a date or a state. -/
def Recalls (pv : Option ItemType) (b : Builder) : Prop := pv = some .dateItem ∨ pv = some .stateItem → b.prev = pv

/-- An invariant `B` of the builder while items satisfying `L` are built, and what it gives for the calls of the handlers. -/
structure DeliveryInv (L : Option ItemType → ItemType → Str → Prop) (B : Builder → Prop) (P : Call → Prop) : Prop where
  start : B {}
  dated : ∀ b c, B b → ((b.begin .normal).build .dateItem c).2 = none → B ((b.begin .normal).build .dateItem c).1
  timed : ∀ b c, B b → ((b.begin .periodic).build .periodItem c).2 = none → B ((b.begin .periodic).build .periodItem c).1
  built : ∀ pv b i c, L pv i c → Recalls pv b → B b → (b.build i c).2 = none → B (b.build i c).1
  normal : ∀ b t file, B b → b.ttype = .normal → b.transaction = some t → (endNormalTransaction b.current false t).2 = none →
    P (.normal (endNormalTransaction b.current false t).1 file) ∧ B { b with transaction := none, current := none }
  periodic : ∀ b pt file, B b → b.ttype = .periodic → b.periodic = some pt →
    (endNormalTransaction b.current (pt.period.interval = .none) pt.transaction).2 = none →
    P (.periodic { pt with transaction := (endNormalTransaction b.current (pt.period.interval = .none) pt.transaction).1 } file) ∧
      B { b with periodic := none, current := none }

variable {L : Option ItemType → ItemType → Str → Prop} {B : Builder → Prop} {P : Call → Prop}

theorem DeliveryInv.ended (D : DeliveryInv L B P) (H : Handlers σ) (st : PState (σ × List Call))
    (hs : B st.builder ∧ ∀ c ∈ st.user.2, P c) :
    Keeps (fun st => B st.builder ∧ ∀ c ∈ st.user.2, P c) (fun st => ∀ c ∈ st.user.2, P c) (endTransaction (logged H) st) := by
  obtain ⟨hb, hc⟩ := hs
  unfold endTransaction
  cases htt : st.builder.ttype with
  | normal =>
    simp only
    cases ht : st.builder.transaction with
    | none => exact ⟨hc, fun _ => ⟨hb, hc⟩⟩
    | some t =>
      simp only
      have hok := fun file => D.normal st.builder t file hb htt ht
      generalize hr : endNormalTransaction st.builder.current false t = r at hok
      obtain ⟨t', _ | e⟩ := r
      · simp only
        rcases callHandler_cases (logged H).th t' { st with builder := { st.builder with transaction := some t' } }
          with ⟨f, h⟩ | ⟨hd, file, h1, h⟩
        · rw [h]
          cases f with
          | none => exact ⟨hc, fun _ => ⟨(hok [] rfl).2, hc⟩⟩
          | some e => exact ⟨hc, by simp⟩
        · simp only [logged, Option.map_eq_some_iff] at h1
          obtain ⟨h0, _, rfl⟩ := h1
          rw [h]
          have hnew : ∀ c ∈ st.user.2 ++ [Call.normal t' file], P c := by
            intro c hmem
            rcases List.mem_append.1 hmem with h' | h'
            · exact hc c h'
            · rw [List.mem_singleton] at h'; subst h'; exact (hok file rfl).1
          simp only
          cases (h0 st.user.1 t' file).2 with
          | none => exact ⟨hnew, fun _ => ⟨(hok [] rfl).2, hnew⟩⟩
          | some e => exact ⟨hnew, by simp⟩
      · exact ⟨hc, by simp⟩
  | periodic =>
    simp only
    cases ht : st.builder.periodic with
    | none => exact ⟨hc, fun _ => ⟨hb, hc⟩⟩
    | some pt =>
      simp only
      have hok := fun file => D.periodic st.builder pt file hb htt ht
      generalize hr : endNormalTransaction st.builder.current (decide (pt.period.interval = PeriodType.none)) pt.transaction = r at hok
      obtain ⟨t', _ | e⟩ := r
      · simp only
        rcases callHandler_cases (logged H).ph { pt with transaction := t' }
          { st with builder := { st.builder with periodic := some { pt with transaction := t' } } }
          with ⟨f, h⟩ | ⟨hd, file, h1, h⟩
        · rw [h]
          cases f with
          | none => exact ⟨hc, fun _ => ⟨(hok [] rfl).2, hc⟩⟩
          | some e => exact ⟨hc, by simp⟩
        · simp only [logged, Option.map_eq_some_iff] at h1
          obtain ⟨h0, _, rfl⟩ := h1
          rw [h]
          have hnew : ∀ c ∈ st.user.2 ++ [Call.periodic { pt with transaction := t' } file], P c := by
            intro c hmem
            rcases List.mem_append.1 hmem with h' | h'
            · exact hc c h'
            · rw [List.mem_singleton] at h'; subst h'; exact (hok file rfl).1
          simp only
          cases (h0 st.user.1 { pt with transaction := t' } file).2 with
          | none => exact ⟨hnew, fun _ => ⟨(hok [] rfl).2, hnew⟩⟩
          | some e => exact ⟨hnew, by simp⟩
      · exact ⟨hc, by simp⟩

theorem build_prev (b : Builder) (i : ItemType) (c : Str) (h : (b.build i c).2 = none) : (b.build i c).1.prev = some i := by
  have key : ∀ r : Step Builder, (r.andThen fun b => (({ b with prev := some i } : Builder), none)).2 = none →
      (r.andThen fun b => (({ b with prev := some i } : Builder), none)).1.prev = some i := by
    rintro ⟨b', _ | e⟩ hb
    · rfl
    · simp [Step.andThen] at hb
  exact key _ h

theorem DeliveryInv.parseItem [Unicode] (D : DeliveryInv L B P) (hL : Lexed L) (H : Handlers σ) (fs : FileSystem) :
    ∀ (n : Nat) (pv : Option ItemType) (item : ItemType) (content : Str) (st : PState (σ × List Call)), L pv item content →
      ((B st.builder ∧ ∀ c ∈ st.user.2, P c) ∧ Recalls pv st.builder) →
      Keeps (fun st => (B st.builder ∧ ∀ c ∈ st.user.2, P c) ∧ Recalls (some item) st.builder) (fun st => ∀ c ∈ st.user.2, P c)
        (parseItem fs (logged H) n item content st) := by
  have hend : ∀ (st : PState (σ × List Call)) (i : ItemType), i ≠ .dateItem → i ≠ .stateItem → (B st.builder ∧ ∀ c ∈ st.user.2, P c) →
      Keeps (fun st => (B st.builder ∧ ∀ c ∈ st.user.2, P c) ∧ Recalls (some i) st.builder) (fun st => ∀ c ∈ st.user.2, P c)
        (endTransaction (logged H) st) := by
    intro st i h1 h2 hs
    have := D.ended H st hs
    exact ⟨this.1, fun h => ⟨this.2 h, fun hc => by simp [h1, h2] at hc⟩⟩
  have hbuild : ∀ (st : PState (σ × List Call)) (pv : Option ItemType) (item : ItemType) (content : Str), L pv item content →
      (B st.builder ∧ ∀ c ∈ st.user.2, P c) → Recalls pv st.builder →
      Keeps (fun st => (B st.builder ∧ ∀ c ∈ st.user.2, P c) ∧ Recalls (some item) st.builder) (fun st => ∀ c ∈ st.user.2, P c)
        (liftBuilder st (st.builder.build item content)) := by
    intro st pv item content hl hs hr
    exact ⟨hs.2, fun h => ⟨⟨D.built pv _ _ _ hl hr hs.1 h, hs.2⟩, fun _ => build_prev _ _ _ h⟩⟩
  intro n
  induction n with
  | zero =>
    intro pv item content st hl hs
    cases item <;> simp only [Gledger.parseItem]
    case includeItem => exact Keeps.fail hs.1.2
    case dateItem =>
      refine (D.ended H st hs.1).andThen' fun st hs => Keeps.wrap ⟨hs.2, fun h => ⟨⟨D.dated _ _ hs.1 h, hs.2⟩, fun _ => build_prev _ _ _ h⟩⟩
    case periodItem =>
      refine (D.ended H st hs.1).andThen' fun st hs => Keeps.wrap ⟨hs.2, fun h => ⟨⟨D.timed _ _ hs.1 h, hs.2⟩, fun _ => build_prev _ _ _ h⟩⟩
    case emptyLineItem => exact hend st _ (by simp) (by simp) hs.1
    case eofItem => exact hend st _ (by simp) (by simp) hs.1
    all_goals exact hbuild _ _ _ _ hl hs.1 hs.2
  | succ n ih =>
    intro pv item content st hl hs
    cases item <;> simp only [Gledger.parseItem]
    case includeItem =>
      cases fs content with
      | none => exact Keeps.fail hs.1.2
      | some bytes =>
        refine (lex_keeps_of (I := fun pv (st : PState (σ × List Call)) => (B st.builder ∧ ∀ c ∈ st.user.2, P c) ∧ Recalls pv st.builder) (fun _ _ h => h.1.2)
          (fun _ _ h => ⟨h.1, fun hc => by simp at hc⟩) hL ih content bytes { st with files := st.files ++ [content] }
          ⟨hs.1, fun hc => by simp at hc⟩).wrap.andThen' fun st hs => ?_
        exact ⟨hs.1.2, fun _ => ⟨hs.1, fun hc => by simp at hc⟩⟩
    case dateItem =>
      refine (D.ended H st hs.1).andThen' fun st hs => Keeps.wrap ⟨hs.2, fun h => ⟨⟨D.dated _ _ hs.1 h, hs.2⟩, fun _ => build_prev _ _ _ h⟩⟩
    case periodItem =>
      refine (D.ended H st hs.1).andThen' fun st hs => Keeps.wrap ⟨hs.2, fun h => ⟨⟨D.timed _ _ hs.1 h, hs.2⟩, fun _ => build_prev _ _ _ h⟩⟩
    case emptyLineItem => exact hend st _ (by simp) (by simp) hs.1
    case eofItem => exact hend st _ (by simp) (by simp) hs.1
    all_goals exact hbuild _ _ _ _ hl hs.1 hs.2

/-- All calls of the handlers satisfy `P`. -/
theorem DeliveryInv.calls [Unicode] (D : DeliveryInv L B P) (hL : Lexed L) (fs : FileSystem) (H : Handlers σ) (maxOpen : Nat) (bytes : List UInt8)
    (path : Str) (u : σ) : ∀ c ∈ callsOf fs H maxOpen bytes path u, P c :=
  (lex_keeps_of (I := fun pv (st : PState (σ × List Call)) => (B st.builder ∧ ∀ c ∈ st.user.2, P c) ∧ Recalls pv st.builder) (fun _ _ h => h.1.2)
    (fun _ _ h => ⟨h.1, fun hc => by simp at hc⟩) hL (D.parseItem hL H fs maxOpen) path bytes
    { (newParser (u, [])) with files := [path] } ⟨⟨D.start, by simp [newParser]⟩, fun hc => by simp at hc⟩).wrap.1

end Gledger
