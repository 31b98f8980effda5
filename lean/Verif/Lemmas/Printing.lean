import Verif.Lemmas.Replay
import Verif.Lemmas.Parse
import Verif.Model.Program

/-! Handlers that print do what they do without printing. -/

namespace Gledger

variable {S T σ τ : Type}

/-- The same step seen through a map of states. -/
def Step.via (f : S → T) (a : Step S) : Step T := (f a.1, a.2)

theorem Step.via_andThen {f : S → T} {a : Step S} {b : Step T} {k : S → Step S} {k' : T → Step T} (h : a.via f = b)
    (hk : ∀ s, (k s).via f = k' (f s)) : (a.andThen k).via f = b.andThen k' := by
  subst h
  obtain ⟨s, _ | e⟩ := a
  · exact hk s
  · rfl

theorem Step.via_wrap {f : S → T} {a : Step S} {b : Step T} (w : Err → Err) (h : a.via f = b) : (a.wrap w).via f = b.wrap w := by
  subst h
  obtain ⟨s, _ | e⟩ := a <;> rfl

theorem runItems_via {f : S → T} {cb : ItemParser S} {cb' : ItemParser T} (h : ∀ i c s, (cb i c s).via f = cb' i c (f s))
    (is : List (ItemType × Str)) : ∀ s, (runItems cb is s).via f = runItems cb' is (f s) := by
  induction is with
  | nil => intro s; rfl
  | cons i is ih =>
    intro s
    exact Step.via_andThen (h _ _ s) ih

theorem runLine_via {f : S → T} {cb : ItemParser S} {cb' : ItemParser T} (h : ∀ i c s, (cb i c s).via f = cb' i c (f s))
    (li : LineItems) (s : S) : (runLine cb li s).via f = runLine cb' li (f s) :=
  Step.via_andThen (runItems_via h li.items s) fun _ => rfl

theorem feedLines_via [Unicode] {f : S → T} {cb : ItemParser S} {cb' : ItemParser T} (h : ∀ i c s, (cb i c s).via f = cb' i c (f s))
    (hint : Str) (ls : List RawLine) : ∀ n s, (feedLines cb hint n ls s).via f = feedLines cb' hint n ls (f s) := by
  induction ls with
  | nil => intro n s; rfl
  | cons l ls ih =>
    intro n s
    cases l with
    | tooLong => rfl
    | line b => exact Step.via_andThen (Step.via_wrap _ (runLine_via h _ s)) (ih (n + 1))

theorem lex_via [Unicode] {f : S → T} {cb : ItemParser S} {cb' : ItemParser T} (h : ∀ i c s, (cb i c s).via f = cb' i c (f s))
    (hint : Str) (bytes : List UInt8) (s : S) : (lex cb hint bytes s).via f = lex cb' hint bytes (f s) := by
  unfold lex
  rw [lexLoop_eq, lexLoop_eq]
  exact Step.via_andThen (feedLines_via h hint _ 1 s) (h _ _)

/-- The parser state seen through a map of the handlers' states. -/
def PState.via (f : σ → τ) (st : PState σ) : PState τ := { builder := st.builder, files := st.files, user := f st.user }

/-- `f` turns what the handlers `H` do into what the handlers `H'` do. -/
structure Handlers.Hom (f : σ → τ) (H : Handlers σ) (H' : Handlers τ) : Prop where
  th : ∀ t st, (callHandler H.th t st).via (PState.via f) = callHandler H'.th t (st.via f)
  ph : ∀ t st, (callHandler H.ph t st).via (PState.via f) = callHandler H'.ph t (st.via f)

theorem endTransaction_via {f : σ → τ} {H : Handlers σ} {H' : Handlers τ} (h : H.Hom f H') (st : PState σ) :
    (endTransaction H st).via (PState.via f) = endTransaction H' (st.via f) := by
  unfold endTransaction
  rw [show (st.via f).builder = st.builder from rfl]
  cases st.builder.ttype with
  | normal =>
    simp only
    cases ht : st.builder.transaction with
    | none => rfl
    | some t =>
      simp only
      split
      · rfl
      · exact Step.via_andThen (h.th _ _) fun _ => rfl
  | periodic =>
    simp only
    cases ht : st.builder.periodic with
    | none => rfl
    | some t =>
      simp only
      split
      · rfl
      · exact Step.via_andThen (h.ph _ _) fun _ => rfl

theorem parseItem_via [Unicode] {f : σ → τ} {H : Handlers σ} {H' : Handlers τ} (h : H.Hom f H') (fs : FileSystem) :
    ∀ (n : Nat) (item : ItemType) (content : Str) (st : PState σ),
      (parseItem fs H n item content st).via (PState.via f) = parseItem fs H' n item content (st.via f) := by
  intro n
  induction n with
  | zero =>
    intro item content st
    cases item <;> simp only [parseItem] <;> first
      | rfl
      | exact endTransaction_via h st
      | exact Step.via_andThen (endTransaction_via h st) fun s => Step.via_wrap _ rfl
  | succ n ih =>
    intro item content st
    cases item
    case includeItem =>
      simp only [parseItem]
      cases fs content with
      | none => rfl
      | some bytes => exact Step.via_andThen (Step.via_wrap _ (lex_via ih content bytes _)) fun _ => rfl
    all_goals
      simp only [parseItem]
      first
      | rfl
      | exact endTransaction_via h st
      | exact Step.via_andThen (endTransaction_via h st) fun s => Step.via_wrap _ rfl

theorem parse_via [Unicode] {f : σ → τ} {H : Handlers σ} {H' : Handlers τ} (h : H.Hom f H') (fs : FileSystem) (maxOpen : Nat)
    (bytes : List UInt8) (path : Str) (u : σ) :
    (parse fs H maxOpen bytes path (newParser u)).via (PState.via f) = parse fs H' maxOpen bytes path (newParser (f u)) :=
  Step.via_wrap _ (lex_via (parseItem_via h fs maxOpen) path bytes _)

theorem printing_hom (H : Handlers σ) (out : σ → Transaction → Str) (pout : σ → PeriodicTransaction → Str) :
    (H.printing out pout).Hom Prod.fst H := by
  refine ⟨fun t st => ?_, fun t st => ?_⟩
  · unfold callHandler Handlers.printing
    simp only
    cases H.th with
    | none => rfl
    | some h =>
      simp only [Option.map_some]
      rw [show (PState.via Prod.fst st).files = st.files from rfl]
      cases st.files.getLast? <;> rfl
  · unfold callHandler Handlers.printing
    simp only
    cases H.ph with
    | none => rfl
    | some h =>
      simp only [Option.map_some]
      rw [show (PState.via Prod.fst st).files = st.files from rfl]
      cases st.files.getLast? <;> rfl

/-- Reading a journal with printing handlers ends as with the handlers that do not print, and with the same state. -/
theorem printing_run [Unicode] (H : Handlers σ) (out : σ → Transaction → Str) (pout : σ → PeriodicTransaction → Str) (fs : FileSystem)
    (maxOpen : Nat) (bytes : List UInt8) (path : Str) (u : σ) :
    (parse fs (H.printing out pout) maxOpen bytes path (newParser (u, []))).2 = (parse fs H maxOpen bytes path (newParser u)).2 ∧
    (parse fs (H.printing out pout) maxOpen bytes path (newParser (u, []))).1.user.1 = (parse fs H maxOpen bytes path (newParser u)).1.user := by
  have := parse_via (printing_hom H out pout) fs maxOpen bytes path (u, [])
  rw [← this]
  exact ⟨rfl, rfl⟩

/-- What a call prints. -/
def Handlers.callOut (H : Handlers σ) (out : σ → Transaction → Str) (pout : σ → PeriodicTransaction → Str) (u : σ) : Call → Str
  | .normal t _ => if H.th.isSome then out u t else []
  | .periodic pt _ => if H.ph.isSome then pout u pt else []

/-- What the calls print, one after the other up to the first that fails. -/
def Handlers.prints (H : Handlers σ) (out : σ → Transaction → Str) (pout : σ → PeriodicTransaction → Str) : List Call → σ → Str
  | [], _ => []
  | c :: cs, u =>
    H.callOut out pout u c ++
      match H.call u c with
      | (u', none) => H.prints out pout cs u'
      | (_, some _) => []

theorem printing_replay (H : Handlers σ) (out : σ → Transaction → Str) (pout : σ → PeriodicTransaction → Str) (calls : List Call) :
    ∀ (u : σ) (text : Str), (H.printing out pout).replay calls (u, text) =
      (((H.replay calls u).1, text ++ H.prints out pout calls u), (H.replay calls u).2) := by
  induction calls with
  | nil => intro u text; simp [Handlers.replay, Handlers.prints]
  | cons c cs ih =>
    intro u text
    have hc : (H.printing out pout).call (u, text) c = (((H.call u c).1, text ++ H.callOut out pout u c), (H.call u c).2) := by
      cases c with
      | normal t f =>
        simp only [Handlers.call, Handlers.printing, Handlers.callOut]
        cases H.th <;> simp
      | periodic pt f =>
        simp only [Handlers.call, Handlers.printing, Handlers.callOut]
        cases H.ph <;> simp
    rw [Handlers.replay, hc, Handlers.replay, Handlers.prints]
    rcases hr : H.call u c with ⟨u', _ | f⟩
    · simp only [Step.andThen, ih, List.append_assoc]
    · simp only [Step.andThen, List.append_nil]

/-- What has been printed when reading a journal ends. -/
theorem printed_replay [Unicode] (H : Handlers σ) (out : σ → Transaction → Str) (pout : σ → PeriodicTransaction → Str) (fs : FileSystem)
    (maxOpen : Nat) (bytes : List UInt8) (path : Str) (u : σ) :
    printedBy fs maxOpen bytes path (H.printing out pout) u = H.prints out pout (delivered fs maxOpen bytes path) u := by
  unfold printedBy
  rw [(parse_replay fs (H.printing out pout) maxOpen bytes path (u, [])).1, printing_replay]
  simp

end Gledger
