/-
The layout of a printed transaction (C49): its lines, spelled out.
-/
import Verif.Props.Reserved

namespace Gledger

/-- The lines in which a transaction is printed: the date (`C11_layout`), the state as a mark and the payee, with the note of the header if there is one; the notes of the
transaction; each posting with its account, commodity and quantity (`C07_display_exact`), followed by its comments. -/
def printedLines (t : Transaction) : List Str :=
  (t.date.format ++ [' ', match t.state with | .cleared => '*' | .uncleared => '!' | .noState => ' ', ' '] ++ t.payee ++
      (if t.headerNote = [] then [] else str "    ; " ++ t.headerNote)) ::
    (t.notes.map fun n => str "    ; " ++ n) ++
    t.postings.flatMap fun p => (str "    " ++ p.accountPath ++ str "    " ++ (p.amount.map fun a => a.commodity ++ displayQuantity a.quantity).getD []) ::
      p.comments.map fun c => str "      ; " ++ c

theorem foldl_breaks {α : Type} (f : α → Str) (xs : List α) : ∀ s : Str, xs.foldl (fun s x => s ++ str "\n" ++ f x) s = s ++ xs.flatMap fun x => str "\n" ++ f x := by
  induction xs with
  | nil => intro s; simp
  | cons x xs ih => intro s; rw [List.foldl_cons, ih, List.flatMap_cons]; simp only [List.append_assoc]

/-- Ends of lines at the end instead of the beginning. -/
theorem breaks_turned (s : Str) (ls : List Str) : s ++ (ls.flatMap fun l => str "\n" ++ l) ++ str "\n" = (s :: ls).flatMap fun l => l ++ str "\n" := by
  induction ls generalizing s with
  | nil => simp
  | cons l ls ih =>
    rw [List.flatMap_cons, List.flatMap_cons, ← ih]
    simp only [List.append_assoc]

/-- A transaction whose postings have amounts is printed in these lines. -/
theorem C49_layout (t : Transaction) (h : ∀ p ∈ t.postings, p.amount ≠ none) : t.format = (printedLines t).flatMap fun l => l ++ str "\n" := by
  have hp : ∀ p ∈ t.postings, str "\n    " ++ p.format = ((str "    " ++ p.accountPath ++ str "    " ++ (p.amount.map fun a => a.commodity ++ displayQuantity a.quantity).getD []) ::
      p.comments.map fun c => str "      ; " ++ c).flatMap fun l => str "\n" ++ l := by
    intro p hp
    cases ha : p.amount with
    | none => exact absurd ha (h p hp)
    | some a =>
      have hf : p.format = (p.accountPath ++ str "    " ++ a.display true) ++ p.comments.flatMap fun c => str "\n" ++ (str "      ; " ++ c) := by
        unfold Posting.format
        rw [ha]
        dsimp only
        rw [← foldl_breaks (fun c => str "      ; " ++ c)]
        congr 1
        funext s c
        simp only [List.append_assoc, show str "\n      ; " = str "\n" ++ str "      ; " by decide]
      rw [hf, List.flatMap_cons, List.flatMap_map, show a.display true = a.commodity ++ displayQuantity a.quantity from rfl]
      simp only [Option.map_some, Option.getD_some, List.append_assoc, show str "\n    " = str "\n" ++ str "    " by decide]
  have hn : ∀ s : Str, t.notes.foldl (fun rs n => rs ++ str "\n    ; " ++ n) s = s ++ (t.notes.map fun n => str "    ; " ++ n).flatMap fun l => str "\n" ++ l := fun s => by
    rw [List.flatMap_map, ← foldl_breaks (fun n => str "    ; " ++ n)]
    congr 1
    funext s c
    simp only [List.append_assoc, show str "\n    ; " = str "\n" ++ str "    ; " by decide]
  have hq : ∀ s : Str, t.postings.foldl (fun rs p => rs ++ str "\n    " ++ p.format) s = s ++ t.postings.flatMap fun p => str "\n    " ++ p.format := fun s => by
    generalize t.postings = ps
    induction ps generalizing s with
    | nil => simp
    | cons p ps ih => rw [List.foldl_cons, ih, List.flatMap_cons]; simp only [List.append_assoc]
  have hh : (if 0 < t.headerNote.length then t.date.format ++ str " " ++ stateToString t.state ++ str " " ++ t.payee ++ str "    ; " ++ t.headerNote
      else t.date.format ++ str " " ++ stateToString t.state ++ str " " ++ t.payee) =
      t.date.format ++ [' ', match t.state with | .cleared => '*' | .uncleared => '!' | .noState => ' ', ' '] ++ t.payee ++
      (if t.headerNote = [] then [] else str "    ; " ++ t.headerNote) := by
    have hs : [' ', match t.state with | .cleared => '*' | .uncleared => '!' | .noState => ' ', ' '] = str " " ++ (stateToString t.state ++ str " ") := by
      cases t.state <;> decide
    rw [hs]
    by_cases hz : t.headerNote = []
    · rw [hz]
      simp
    · rw [if_pos (List.length_pos_iff.2 hz), if_neg hz]
      simp only [List.append_assoc]
  unfold Transaction.format printedLines
  dsimp only
  rw [hn, hq, hh, flatMap_congr_mem hp, ← List.flatMap_assoc, List.cons_append, ← breaks_turned, List.flatMap_append]
  simp only [List.append_assoc]

/-- As `print` prints it. -/
example :
    let posting (a : String) (q : Int) (cs : List Str) : Posting := { accountPath := str a, amount := some ⟨str "$", BitVec.ofInt 64 q⟩, comments := cs }
    ({ date := ⟨2020, 1, 2⟩, state := .cleared, payee := str "Shop", headerNote := str "h", notes := [str "n"],
       postings := [posting "Expenses:Food" 1050 [str "c"], posting "Assets" (-1050) []] } : Transaction).format =
      str "2020-01-02 * Shop    ; h\n    ; n\n    Expenses:Food    $10.50\n      ; c\n    Assets    $-10.50\n" := by
  decide +kernel

end Gledger
