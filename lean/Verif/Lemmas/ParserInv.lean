import Verif.Lemmas.LineItems
import Verif.Model.Parser

namespace Gledger

section Generic

variable {S : Type}

/-- A step keeps the invariant `I` if it succeeds, and always establishes `G`. -/
def Keeps (I G : S → Prop) (r : Step S) : Prop := G r.1 ∧ (r.2 = none → I r.1)

theorem Keeps.andThen {I G : S → Prop} {a : Step S} {f : S → Step S} (ha : Keeps I G a)
    (hf : ∀ s, I s → Keeps I G (f s)) : Keeps I G (a.andThen f) := by
  obtain ⟨s, _ | e⟩ := a
  · exact hf s (ha.2 rfl)
  · exact ⟨ha.1, by simp⟩

theorem Keeps.andThen' {I J G : S → Prop} {a : Step S} {f : S → Step S} (ha : Keeps J G a)
    (hf : ∀ s, J s → Keeps I G (f s)) : Keeps I G (a.andThen f) := by
  obtain ⟨s, _ | e⟩ := a
  · exact hf s (ha.2 rfl)
  · exact ⟨ha.1, by simp⟩

theorem Keeps.wrap {I G : S → Prop} {a : Step S} {f : Err → Err} (ha : Keeps I G a) : Keeps I G (a.wrap f) := by
  obtain ⟨s, _ | e⟩ := a
  · exact ⟨ha.1, fun _ => ha.2 rfl⟩
  · exact ⟨ha.1, by simp [Step.wrap]⟩

theorem Keeps.pure {I G : S → Prop} (h : ∀ s, I s → G s) {s : S} (hs : I s) : Keeps I G (s, none) :=
  ⟨h s hs, fun _ => hs⟩

theorem Keeps.fail {I G : S → Prop} {s : S} {e : Failure} (hs : G s) : Keeps I G (s, some e) :=
  ⟨hs, by simp⟩

theorem runItems_keeps {I G : S → Prop} (hIG : ∀ s, I s → G s) {cb : ItemParser S}
    (hcb : ∀ i c s, I s → Keeps I G (cb i c s)) (is : List (ItemType × Str)) :
    ∀ s, I s → Keeps I G (runItems cb is s) := by
  induction is with
  | nil => intro s hs; exact Keeps.pure hIG hs
  | cons i is ih => intro s hs; exact (hcb _ _ _ hs).andThen ih

theorem lexLine_keeps [Unicode] {I G : S → Prop} (hIG : ∀ s, I s → G s) {cb : ItemParser S}
    (hcb : ∀ i c s, I s → Keeps I G (cb i c s)) (hint : Str) (line : List UInt8) (s : S) (hs : I s) :
    Keeps I G (lexLine cb hint line s) := by
  rw [lexLine_eq]
  refine (runItems_keeps hIG hcb _ s hs).andThen fun s hs => ?_
  cases (lineItems hint (runes line)).err with
  | none => exact Keeps.pure hIG hs
  | some e => exact Keeps.fail (hIG s hs)

theorem lexLoop_keeps [Unicode] {I G : S → Prop} (hIG : ∀ s, I s → G s) {cb : ItemParser S}
    (hcb : ∀ i c s, I s → Keeps I G (cb i c s)) (hint : Str) (lines : List RawLine) :
    ∀ (n : Nat) (s : S), I s → Keeps I G (lexLoop cb hint n lines s) := by
  induction lines with
  | nil => intro n s hs; exact hcb _ _ _ hs
  | cons l ls ih =>
    intro n s hs
    cases l with
    | tooLong => exact Keeps.fail (hIG s hs)
    | line b =>
      have h1 := lexLine_keeps hIG hcb hint b s hs
      simp only [lexLoop]
      generalize lexLine cb hint b s = r at h1
      obtain ⟨s', _ | e⟩ := r
      · exact ih _ _ (h1.2 rfl)
      · exact Keeps.fail h1.1

theorem lex_keeps [Unicode] {I G : S → Prop} (hIG : ∀ s, I s → G s) {cb : ItemParser S}
    (hcb : ∀ i c s, I s → Keeps I G (cb i c s)) (hint : Str) (bytes : List UInt8) (s : S) (hs : I s) :
    Keeps I G (lex cb hint bytes s) := lexLoop_keeps hIG hcb hint _ _ _ hs

end Generic

variable {σ : Type}

/-- What an invariant of the parser must be stable under; `J` is the form it has just after a transaction
has ended. -/
structure ParserInv (H : Handlers σ) (I J G : PState σ → Prop) : Prop where
  weak : ∀ st, I st → G st
  idle : ∀ st, J st → I st
  files : ∀ st fs, I st → I { st with files := fs }
  ended : ∀ st, I st → Keeps J G (endTransaction H st)
  begun : ∀ st t, J st → I { st with builder := st.builder.begin t }
  built : ∀ st item content, I st → Keeps I G (liftBuilder st (st.builder.build item content))

theorem parseItem_keeps [Unicode] {H : Handlers σ} {I J G : PState σ → Prop} (hinv : ParserInv H I J G)
    (fs : FileSystem) : ∀ (n : Nat) (item : ItemType) (content : Str) (st : PState σ), I st →
    Keeps I G (parseItem fs H n item content st) := by
  intro n
  induction n with
  | zero =>
    intro item content st hs
    cases item <;> simp only [parseItem]
    case includeItem => exact Keeps.fail (hinv.weak _ (hinv.files _ _ hs))
    case dateItem =>
      exact (hinv.ended st hs).andThen' fun st hs => (hinv.built _ _ _ (hinv.begun _ _ hs)).wrap
    case periodItem =>
      exact (hinv.ended st hs).andThen' fun st hs => (hinv.built _ _ _ (hinv.begun _ _ hs)).wrap
    case emptyLineItem => exact ⟨(hinv.ended st hs).1, fun h => hinv.idle _ ((hinv.ended st hs).2 h)⟩
    case eofItem => exact ⟨(hinv.ended st hs).1, fun h => hinv.idle _ ((hinv.ended st hs).2 h)⟩
    all_goals exact hinv.built _ _ _ hs
  | succ n ih =>
    intro item content st hs
    cases item <;> simp only [parseItem]
    case includeItem =>
      cases fs content with
      | none => exact Keeps.fail (hinv.weak _ (hinv.files _ _ hs))
      | some bytes =>
        refine (lex_keeps hinv.weak ih content bytes _ (hinv.files _ _ hs)).wrap.andThen fun st hs => ?_
        exact Keeps.pure hinv.weak (hinv.files _ _ hs)
    case dateItem =>
      exact (hinv.ended st hs).andThen' fun st hs => (hinv.built _ _ _ (hinv.begun _ _ hs)).wrap
    case periodItem =>
      exact (hinv.ended st hs).andThen' fun st hs => (hinv.built _ _ _ (hinv.begun _ _ hs)).wrap
    case emptyLineItem => exact ⟨(hinv.ended st hs).1, fun h => hinv.idle _ ((hinv.ended st hs).2 h)⟩
    case eofItem => exact ⟨(hinv.ended st hs).1, fun h => hinv.idle _ ((hinv.ended st hs).2 h)⟩
    all_goals exact hinv.built _ _ _ hs

theorem parse_keeps [Unicode] {H : Handlers σ} {I J G : PState σ → Prop} (hinv : ParserInv H I J G)
    (fs : FileSystem) (maxOpen : Nat) (bytes : List UInt8) (hint : Str) (st : PState σ) (hs : I st) :
    Keeps I G (parse fs H maxOpen bytes hint st) :=
  (lex_keeps hinv.weak (parseItem_keeps hinv fs maxOpen) hint bytes _ (hinv.files _ _ hs)).wrap

end Gledger
