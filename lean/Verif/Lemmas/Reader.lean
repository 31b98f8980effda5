import Verif.Spec.Reading
import Verif.Lemmas.Lines

namespace Gledger

variable {ρ S σ : Type}

/-- What bufio holds and what is still to come. -/
def Holds (e : ReadErr) (P : Nat → ρ → List UInt8 → Prop) (b : BufReader ρ) (total : List UInt8) : Prop :=
  (b.err = none ∧ b.buffered.length ≤ bufSize ∧ ∃ rest, total = b.buffered ++ rest ∧ P 0 b.src rest) ∨
  (b.err = some e ∧ b.buffered.length < bufSize ∧ total = b.buffered ∧ P 0 b.src [])

theorem fillLoop_spec {R : Source ρ} {e : ReadErr} {P : Nat → ρ → List UInt8 → Prop} (hR : Honest R e P) :
    ∀ (left j : Nat) (b : BufReader ρ) (rest : List UInt8), j + left = 100 → 0 < left → b.err = none → b.buffered.length < bufSize →
      P j b.src rest →
      Holds e P (fillLoop R left b) (b.buffered ++ rest) ∧
        (b.buffered.length < (fillLoop R left b).buffered.length ∨ (fillLoop R left b).err = some e) := by
  intro left
  induction left with
  | zero => intro j b rest _ h; exact absurd h (by omega)
  | succ left ih =>
    intro j b rest hj _ he hb hP
    obtain ⟨s', h | ⟨d, r', h1, h2, h3, h4, h5⟩ | ⟨h1, h2, h3⟩ | ⟨h1, h2, h3, h4, h5⟩⟩ := hR j b.src rest hP (bufSize - b.buffered.length) (by omega)
    · obtain ⟨h1, h2, h3⟩ := h
      have : fillLoop R (left + 1) b = fillLoop R left { b with src := s' } := by
        simp [fillLoop, h1]
      rw [this]
      exact ih (j + 1) { b with src := s' } rest (by omega) (by omega) he hb h3
    · have : fillLoop R (left + 1) b = { b with buffered := b.buffered ++ d, src := s' } := by
        simp only [fillLoop, h4, if_pos h2]
      rw [this, h1]
      refine ⟨Or.inl ⟨he, ?_, r', by simp, h5⟩, Or.inl ?_⟩ <;> simp only [List.length_append] <;> omega
    · have : fillLoop R (left + 1) b = { b with buffered := b.buffered, err := some e, src := s' } := by
        simp [fillLoop, h2]
      rw [this, h1]
      exact ⟨Or.inr ⟨rfl, hb, by simp, h3⟩, Or.inr rfl⟩
    · have hl : left = 0 := by omega
      subst hl
      have : fillLoop R (0 + 1) b = { b with err := some e, src := s' } := by
        simp [fillLoop, h3, h2]
      rw [this, h1]
      exact ⟨Or.inr ⟨rfl, hb, by simp, h5⟩, Or.inr rfl⟩

theorem takeWhile_newline {l : List UInt8} (h : (10 : UInt8) ∈ l) :
    l = l.takeWhile (· ≠ 10) ++ 10 :: (l.dropWhile (· ≠ 10)).drop 1 ∧ (10 : UInt8) ∉ l.takeWhile (· ≠ 10) := by
  induction l with
  | nil => simp at h
  | cons x l ih =>
    by_cases hx : x = 10
    · subst hx; simp
    · have h' : (10 : UInt8) ∈ l := by
        rcases List.mem_cons.1 h with h | h
        · exact absurd h.symm hx
        · exact h
      obtain ⟨i1, i2⟩ := ih h'
      have ht : (x :: l).takeWhile (· ≠ 10) = x :: l.takeWhile (· ≠ 10) := by simp [hx]
      have hd : (x :: l).dropWhile (· ≠ 10) = l.dropWhile (· ≠ 10) := by simp [hx]
      rw [ht, hd]
      refine ⟨by rw [List.cons_append, ← i1], ?_⟩
      simp only [List.mem_cons, not_or]
      exact ⟨fun h => hx h.symm, i2⟩

/-- The three ways a call of `ReadSlice` can end. -/
theorem readSliceLoop_spec {R : Source ρ} {e : ReadErr} {P : Nat → ρ → List UInt8 → Prop} (hR : Honest R e P) :
    ∀ (n : Nat) (b : BufReader ρ) (total : List UInt8), Holds e P b total →
      (b.err = none → bufSize + 2 ≤ n + b.buffered.length) → 0 < n →
      (∃ c t b', (10 : UInt8) ∉ c ∧ total = c ++ 10 :: t ∧ c.length < bufSize ∧ readSliceLoop R n b = (c ++ [10], .found, b') ∧ Holds e P b' t) ∨
      (∃ c t b', (10 : UInt8) ∉ c ∧ total = c ++ t ∧ c.length = bufSize ∧ readSliceLoop R n b = (c, .full, b')) ∨
      (∃ b', (10 : UInt8) ∉ total ∧ total.length < bufSize ∧ readSliceLoop R n b = (total, .failed e, b') ∧ Holds e P b' []) := by
  intro n
  induction n with
  | zero => intro b total _ _ h; exact absurd h (by omega)
  | succ n ih =>
    intro b total hH hn _
    by_cases hm : (10 : UInt8) ∈ b.buffered
    · obtain ⟨hs, hc⟩ := takeWhile_newline hm
      have hlen : (b.buffered.takeWhile (· ≠ 10)).length < b.buffered.length := by
        have := congrArg List.length hs
        simp only [List.length_append, List.length_cons] at this
        omega
      left
      rcases hH with ⟨h1, h2, rest, h3, h4⟩ | ⟨h1, h2, h3, h4⟩
      · refine ⟨b.buffered.takeWhile (· ≠ 10), (b.buffered.dropWhile (· ≠ 10)).drop 1 ++ rest,
          { b with buffered := (b.buffered.dropWhile (· ≠ 10)).drop 1 }, hc, ?_, by omega, ?_, Or.inl ⟨h1, ?_, rest, rfl, h4⟩⟩
        · rw [h3]
          conv_lhs => rw [hs]
          simp
        · simp only [readSliceLoop, if_pos hm]
        · have := congrArg List.length hs
          simp only [List.length_append, List.length_cons] at this
          show ((b.buffered.dropWhile (· ≠ 10)).drop 1).length ≤ bufSize
          omega
      · refine ⟨b.buffered.takeWhile (· ≠ 10), (b.buffered.dropWhile (· ≠ 10)).drop 1,
          { b with buffered := (b.buffered.dropWhile (· ≠ 10)).drop 1 }, hc, ?_, by omega, ?_, Or.inr ⟨h1, ?_, rfl, h4⟩⟩
        · rw [h3]; exact hs
        · simp only [readSliceLoop, if_pos hm]
        · have := congrArg List.length hs
          simp only [List.length_append, List.length_cons] at this
          show ((b.buffered.dropWhile (· ≠ 10)).drop 1).length < bufSize
          omega
    · rcases hH with ⟨h1, h2, rest, h3, h4⟩ | ⟨h1, h2, h3, h4⟩
      · by_cases hf : bufSize ≤ b.buffered.length
        · right; left
          refine ⟨b.buffered, rest, { b with buffered := [] }, hm, h3, by omega, ?_⟩
          simp only [readSliceLoop, if_neg hm, h1, if_pos hf]
        · have hr : readSliceLoop R (n + 1) b = readSliceLoop R n (b.fill R) := by
            simp only [readSliceLoop, if_neg hm, h1, if_neg hf]
          have hn' := hn h1
          obtain ⟨g1, g2⟩ := fillLoop_spec hR 100 0 b rest rfl (by omega) h1 (by omega) h4
          rw [hr]
          subst h3
          refine ih (b.fill R) _ g1 ?_ (by omega)
          intro hnone
          rcases g2 with g2 | g2
          · show bufSize + 2 ≤ n + (fillLoop R 100 b).buffered.length
            omega
          · rw [BufReader.fill, g2] at hnone
            exact absurd hnone (by simp)
      · right; right
        subst h3
        refine ⟨{ b with buffered := [], err := none }, hm, h2, ?_, Or.inl ⟨rfl, by simp, [], rfl, h4⟩⟩
        simp only [readSliceLoop, if_neg hm, h1]

/-- What `ReadLine` yields, by what is still to come. -/
theorem readLine_spec {R : Source ρ} {e : ReadErr} {P : Nat → ρ → List UInt8 → Prop} (hR : Honest R e P) {b : BufReader ρ} {total : List UInt8}
    (h : Holds e P b total) :
    (total = [] ∧ ∃ b', b.readLine R = (.error e, b')) ∨
    (∃ rest, readLines total = .tooLong :: rest ∧ ∃ l b', b.readLine R = (.ok (l, true), b')) ∨
    (∃ l t b', readLines total = .line l :: readLines t ∧ t.length < total.length ∧ b.readLine R = (.ok (l, false), b') ∧ Holds e P b' t) := by
  rcases readSliceLoop_spec hR (bufSize + 2) b total h (fun _ => by omega) (by omega) with
    ⟨c, t, b', h1, h2, h3, h4, h5⟩ | ⟨c, t, b', h1, h2, h3, h4⟩ | ⟨b', h1, h2, h3, h4⟩
  · right; right
    have hd : (c ++ [(10 : UInt8)]).dropLast = c := by simp
    by_cases hcr : c.getLast? = some 13
    · refine ⟨c.dropLast, t, b', ?_, ?_, ?_, h5⟩
      · rw [h2, readLines_line _ _ h1, terminatedLine, if_neg (by omega), if_pos hcr]
      · rw [h2]; simp only [List.length_append, List.length_cons]; omega
      · simp only [BufReader.readLine, BufReader.readSlice, h4, hd, if_pos hcr]
    · refine ⟨c, t, b', ?_, ?_, ?_, h5⟩
      · rw [h2, readLines_line _ _ h1, terminatedLine, if_neg (by omega), if_neg hcr]
      · rw [h2]; simp only [List.length_append, List.length_cons]; omega
      · simp only [BufReader.readLine, BufReader.readSlice, h4, hd, if_neg hcr]
  · right; left
    have hl : ∃ rest, readLines total = .tooLong :: rest := by
      rw [h2]
      by_cases ht : (10 : UInt8) ∈ t
      · obtain ⟨hs, hc⟩ := takeWhile_newline ht
        rw [hs, ← List.append_assoc, readLines_line _ _ (by simp only [List.mem_append, not_or]; exact ⟨h1, hc⟩), terminatedLine,
          if_pos (by simp only [List.length_append]; omega)]
        exact ⟨_, rfl⟩
      · have hne : c ++ t ≠ [] := by
          intro h0
          have := congrArg List.length h0
          simp only [List.length_append, List.length_nil, h3, bufSize] at this
          omega
        rw [readLines_last _ (by simp only [List.mem_append, not_or]; exact ⟨h1, ht⟩), if_neg hne, unterminatedLine,
          if_pos (by simp only [List.length_append]; omega)]
        exact ⟨_, rfl⟩
    obtain ⟨rest, hl⟩ := hl
    refine ⟨rest, hl, ?_⟩
    by_cases hcr : c.getLast? = some 13
    · exact ⟨c.dropLast, { b' with buffered := [13] }, by simp only [BufReader.readLine, BufReader.readSlice, h4, if_pos hcr]⟩
    · exact ⟨c, b', by simp only [BufReader.readLine, BufReader.readSlice, h4, if_neg hcr]⟩
  · by_cases hne : total = []
    · left
      subst hne
      exact ⟨rfl, b', by simp [BufReader.readLine, BufReader.readSlice, h3]⟩
    · right; right
      have hlen : total.length ≠ 0 := by simpa using hne
      refine ⟨total, [], b', ?_, by simp only [List.length_nil]; omega, ?_, h4⟩
      · rw [readLines_last _ h1, if_neg hne, unterminatedLine, if_neg (by omega)]
        rfl
      · simp only [BufReader.readLine, BufReader.readSlice, h3, if_neg hlen]

/-- The lexer's reaction to the end of what can be read. -/
def atEnd (cb : ItemParser S) (e : ReadErr) (s : S) : Step S :=
  if e.text = str "EOF" then cb .eofItem [] s else (s, some (.err (.readFile e.text)))

theorem lexReader_spec [Unicode] {R : Source ρ} {e : ReadErr} {P : Nat → ρ → List UInt8 → Prop} (hR : Honest R e P) (cb : ItemParser S) (hint : Str) :
    ∀ (k n : Nat) (b : BufReader ρ) (total : List UInt8) (s : S), Holds e P b total → total.length < k →
      lexReader R cb hint k n b s = (feedLines cb hint n (readLines total) s).andThen (atEnd cb e) := by
  intro k
  induction k with
  | zero => intro n b total s _ h; omega
  | succ k ih =>
    intro n b total s hH hk
    rcases readLine_spec hR hH with ⟨h1, b', h2⟩ | ⟨rest, h1, l, b', h2⟩ | ⟨l, t, b', h1, h2, h3, h4⟩
    · subst h1
      simp only [lexReader, h2]
      rfl
    · rw [h1]
      simp only [lexReader, h2]
      rfl
    · have := ih (n + 1) b' t
      rw [h1, feedLines, andThen_assoc]
      simp only [lexReader, h3, lexLine_eq]
      generalize runLine cb (lineItems hint (runes l)) s = r
      obtain ⟨s', _ | f⟩ := r
      · exact this s' h4 (by omega)
      · rfl

theorem lexReader_delivers [Unicode] {R : Source ρ} {e : ReadErr} {src : ρ} {bs : List UInt8} (h : Delivers R e src bs) (cb : ItemParser S) (hint : Str)
    {k : Nat} (hk : bs.length < k) (s : S) :
    lexReader R cb hint k 1 { src := src } s = (feedLines cb hint 1 (readLines bs) s).andThen (atEnd cb e) := by
  obtain ⟨P, hR, hP⟩ := h
  exact lexReader_spec hR cb hint k 1 _ bs s (Or.inl ⟨rfl, by simp, bs, rfl, hP⟩) hk

/-- Items other than include directives do not depend on the files. -/
theorem readItem_other [Unicode] (R : Source ρ) (disk : Disk ρ) (k : Nat) (fs : FileSystem) (H : Handlers σ) (n : Nat) {item : ItemType}
    (h : item ≠ .includeItem ∨ n = 0) : readItem R disk k H n item = parseItem fs H n item := by
  cases n with
  | zero => cases item <;> rfl
  | succ n => cases item <;> first | rfl | exact absurd rfl (h.resolve_right (by omega))

end Gledger
