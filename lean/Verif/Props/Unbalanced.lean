/-
C03, C05: entries that are rejected, directly below what comes before.
-/
import Verif.Props.Rejects
import Verif.Props.Sources

namespace Gledger

variable {σ : Type}

theorem entry_headerLine [U : Unicode] {e : Entry} (he : e.Ok) : HeaderLine (encode e.header.line) := by
  obtain ⟨c, hc, hn⟩ := (show e.header.Ok from he.1).1
  unfold HeaderLine
  rw [runes_encode]
  cases hd : e.header.date with
  | nil => rw [hd] at hc; cases hc
  | cons x xs =>
    rw [hd] at hc
    obtain rfl : x = c := by simpa using hc
    exact ⟨x, xs ++ (e.header.gap ++ (e.header.state.mark ++ (e.header.gap2 ++ (e.header.payee ++ (e.header.note.map fun n => n.1 ++ n.2.written).getD [])))),
      by simp [Header.line, hd], Or.inl hn⟩

/-- Without the blank line before an entry nothing changes but line numbers. -/
theorem entry_directly [Unicode] (fs : FileSystem) (H : Handlers σ) (maxOpen : Nat) (path : Str) (u : σ) (a r : List UInt8) (ha : WholeLines a)
    (e : Entry) (he : e.Ok) (hfit : Fits e.lines) :
    let rest := textOf [10] (e.lines.map encode) ++ r
    callsOf fs H maxOpen (a ++ rest) path u = callsOf fs H maxOpen (a ++ ([10] ++ rest)) path u ∧
    (failureOf fs H maxOpen (a ++ rest) path u).map Failure.core = (failureOf fs H maxOpen (a ++ ([10] ++ rest)) path u).map Failure.core := by
  intro rest
  have hl : readLines rest = .line (encode e.header.line) :: (rawLines (e.lines.drop 1) ++ readLines r) := by
    show readLines (textOf [10] (e.lines.map encode) ++ r) = _
    rw [readLines_textOf_lf]
    · simp [rawLines, Entry.lines, Function.comp_def]
    · intro l hl
      obtain ⟨x, hx, rfl⟩ := List.mem_map.1 hl
      exact hfit x hx
  obtain ⟨h1, h2⟩ := C13_blank_before_header fs (logged H) maxOpen path (u, []) a [10] rest _ _ ha (Or.inl rfl) hl (entry_headerLine he)
  refine ⟨by unfold callsOf; rw [h1], ?_⟩
  unfold failureOf
  revert h2
  generalize (parse fs (logged H) maxOpen (a ++ ([10] ++ rest)) path (newParser (u, []))).2 = x
  generalize (parse fs (logged H) maxOpen (a ++ rest) path (newParser (u, []))).2 = y
  intro h2
  cases x with
  | none => cases y with
    | none => rfl
    | some g => cases h2
  | some f => cases y with
    | none => cases h2
    | some g =>
      simp only [Option.map_some, Option.some.injEq] at h2 ⊢
      exact (core_of_unnumbered h2).symm

/-- **C03** for an entry directly below what comes before, or at the start of the file. -/
theorem C03_directly [Unicode] (fs : FileSystem) (H : Handlers σ) (maxOpen : Nat) (path : Str) (u : σ)
    (a r : List UInt8) (ha : WholeLines a) (hok : failureOf fs H maxOpen a path u = none)
    (e : Entry) (he : e.Ok) (hfit : Fits e.lines) (hr : Ends (readLines r))
    (hall : ∀ p ∈ e.postings, p.amount ≠ none) (hsum : (e.body.map Posting.value).sum ≠ 0) :
    let bytes := a ++ (textOf [10] (e.lines.map encode) ++ r)
    (∃ f, failureOf fs H maxOpen bytes path u = some f ∧ f.core = .err .unbalanced) ∧
      callsOf fs H maxOpen bytes path u = callsOf fs H maxOpen a path u := by
  intro bytes
  obtain ⟨⟨f, h1, h2⟩, h3⟩ := C03_unbalanced_rejected fs H maxOpen path u a [10] r ha hok (Or.inl rfl) e he hfit hr hall hsum
  obtain ⟨d1, d2⟩ := entry_directly fs H maxOpen path u a r ha e he hfit
  refine ⟨?_, d1.trans h3⟩
  rw [h1] at d2
  obtain ⟨g, g1, g2⟩ := Option.map_eq_some_iff.1 d2
  exact ⟨g, g1, g2.trans h2⟩

/-- Likewise **C05**, as far as it holds. -/
theorem C05_directly_partial [Unicode] (fs : FileSystem) (H : Handlers σ) (maxOpen : Nat) (path : Str) (u : σ)
    (a r : List UInt8) (ha : WholeLines a) (hok : failureOf fs H maxOpen a path u = none)
    (e : Entry) (he : e.Ok) (hfit : Fits e.lines) (hr : Ends (readLines r)) (ps : List WrittenPosting) (last p : WrittenPosting)
    (hps : e.postings = ps ++ [last]) (hlast : last.amount = none) (hp : p ∈ ps) (hpa : p.amount = none) :
    let bytes := a ++ (textOf [10] (e.lines.map encode) ++ r)
    (∃ f, failureOf fs H maxOpen bytes path u = some f ∧ f.core = .err .tooManyElided) ∧
      callsOf fs H maxOpen bytes path u = callsOf fs H maxOpen a path u := by
  intro bytes
  obtain ⟨⟨f, h1, h2⟩, h3⟩ := C05_last_elided_partial fs H maxOpen path u a [10] r ha hok (Or.inl rfl) e he hfit hr ps last p hps hlast hp hpa
  obtain ⟨d1, d2⟩ := entry_directly fs H maxOpen path u a r ha e he hfit
  refine ⟨?_, d1.trans h3⟩
  rw [h1] at d2
  obtain ⟨g, g1, g2⟩ := Option.map_eq_some_iff.1 d2
  exact ⟨g, g1, g2.trans h2⟩

set_option maxRecDepth 100000 in
/-- A file that begins with an unbalanced entry, and one directly below a good one. -/
example :
    letI := asciiUnicode
    let h : Header := { date := str "2020-01-01", day := ⟨2020, 1, 1⟩, payee := str "x" }
    let a : WrittenPosting := { account := str "A", amount := some { number := str "1", quantity := 100 } }
    let b : WrittenPosting := { account := str "B", amount := some { number := str "-0.99", quantity := -99 } }
    let e : Entry := { header := h, postings := [a, b] }
    e.Ok ∧ Fits e.lines ∧ (∀ p ∈ e.postings, p.amount ≠ none) ∧ (e.body.map Posting.value).sum ≠ 0 ∧
    failureOf noFiles recorder 1 [] (str "f") [] = none ∧ failureOf noFiles recorder 1 (utf8 "2020-01-01 x\n  A  1\n  B\n") (str "f") [] = none ∧
    (callsOf noFiles recorder 1 (utf8 "2020-01-01 x\n  A  1\n  B\n" ++ textOf [10] (e.lines.map encode)) (str "f") []).length = 1 ∧
    (failureOf noFiles recorder 1 (textOf [10] (e.lines.map encode)) (str "f") []).map Failure.core = some (.err .unbalanced) := by
  decide +kernel

end Gledger
