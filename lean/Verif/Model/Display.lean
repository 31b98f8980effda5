/-
journal/amount.go:26-33 (through float64), and the String methods.
-/
import Verif.Model.Journal

namespace Gledger

/-- Nearest integer to `num / den`, ties to even. -/
def rne (num den : Nat) : Nat :=
  let q := num / den
  let r := num % den
  if 2 * r < den then q
  else if den < 2 * r then q + 1
  else if q % 2 = 0 then q else q + 1

/-- A positive finite float64 `mant * 2^exp` (or zero). -/
structure Dbl where
  mant : Nat
  exp : Int
  deriving DecidableEq, Repr

/-- IEEE-754 binary64 rounding (to nearest, ties to even) of the rational `num / den`, for zero and for
values from 2^-64 up to far below the largest double: 53 significant bits. -/
def toDbl (num den : Nat) : Dbl :=
  if num = 0 then ⟨0, 0⟩
  else
    let e : Int := (Nat.log2 (num * 2 ^ 64 / den) : Int) - 64 - 52
    if 0 ≤ e then ⟨rne num (den * 2 ^ e.toNat), e⟩
    else ⟨rne (num * 2 ^ (-e).toNat) den, e⟩

/-- `x / 100` in float64 arithmetic: the correctly rounded quotient. -/
def Dbl.div100 (x : Dbl) : Dbl :=
  if 0 ≤ x.exp then toDbl (x.mant * 2 ^ x.exp.toNat) 100
  else toDbl x.mant (100 * 2 ^ (-x.exp).toNat)

/-- The number of hundredths printed by `%.2f`: the exact value of the double rounded to two decimals,
ties to even (strconv formats 'f' with a precision by exact decimal conversion). -/
def Dbl.hundredths (x : Dbl) : Nat :=
  if 0 ≤ x.exp then x.mant * 2 ^ x.exp.toNat * 100
  else rne (x.mant * 100) (2 ^ (-x.exp).toNat)

/-- A number of hundredths as `digits.dd`. -/
def renderHundredths (c : Nat) : Str := natDigits (c / 100) ++ ['.'] ++ pad2 (c % 100)

/-- journal/amount.go:27-28: `fmt.Sprintf("%.2f", float64(q) / 100)`. Negation is exact in floating point, so
the sign is handled separately. -/
def displayQuantity (q : I64) : Str :=
  (if q.toInt < 0 then ['-'] else []) ++
    renderHundredths ((toDbl q.toInt.natAbs 1).div100).hundredths

/-- journal/amount.go:26-33 -/
def Amount.display (a : Amount) (withCommodity : Bool) : Str :=
  if withCommodity then a.commodity ++ displayQuantity a.quantity else displayQuantity a.quantity

/-- journal/transaction.go:21-30 -/
def stateToString : TransactionState → Str
  | .uncleared => ['!']
  | .cleared => ['*']
  | .noState => [' ']

/-- What `%s` prints when the `String` method panics on a nil `Amount` (package fmt recovers it). -/
def fmtPanic : Str :=
  str "%!s(PANIC=String method: runtime error: invalid memory address or nil pointer dereference)"

/-- journal/posting.go:25-32, as printed by `%s` (journal/transaction.go:68). -/
def Posting.format (p : Posting) : Str :=
  match p.amount with
  | none => fmtPanic
  | some a =>
    p.comments.foldl (fun rs c => rs ++ str "\n      ; " ++ c)
      (p.accountPath ++ str "    " ++ a.display true)

/-- journal/transaction.go:54-72 -/
def Transaction.format (t : Transaction) : Str :=
  let rs := t.date.format ++ str " " ++ stateToString t.state ++ str " " ++ t.payee
  let rs := if 0 < t.headerNote.length then rs ++ str "    ; " ++ t.headerNote else rs
  let rs := t.notes.foldl (fun rs n => rs ++ str "\n    ; " ++ n) rs
  let rs := t.postings.foldl (fun rs p => rs ++ str "\n    " ++ p.format) rs
  rs ++ str "\n"

end Gledger
