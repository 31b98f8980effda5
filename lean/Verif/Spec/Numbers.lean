/-
Specification vocabulary for written numbers: digits, signs and decimal numerals. Independent of the parser.
-/
import Verif.Model.Basic

namespace Gledger

/-- A decimal digit. -/
def Digit (c : Char) : Prop := '0'.toNat ≤ c.toNat ∧ c.toNat ≤ '9'.toNat

instance (c : Char) : Decidable (Digit c) := by unfold Digit; infer_instance

/-- One or more decimal digits. -/
def Digits (s : Str) : Prop := s ≠ [] ∧ ∀ c ∈ s, Digit c

instance (s : Str) : Decidable (Digits s) := by unfold Digits; infer_instance

/-- The number a string of digits denotes, most significant digit first. -/
def decimalValue (s : Str) : Nat := s.foldl (fun v c => v * 10 + (c.toNat - '0'.toNat)) 0

/-- An optional sign. -/
inductive Sign
  | absent | plus | minus
  deriving DecidableEq, Repr

/-- How the sign is written. -/
def Sign.text : Sign → Str
  | .absent => []
  | .plus => ['+']
  | .minus => ['-']

/-- The sign applied to a number. -/
def Sign.apply : Sign → Int → Int
  | .minus, v => -v
  | _, v => v

/-- A signed decimal numeral: digits, optionally a point and more digits. -/
structure Numeral where
  sign : Sign := .absent
  whole : Str
  fraction : Option Str := none
  deriving DecidableEq, Repr

/-- Well-formedness: digits on both sides of the point. -/
def Numeral.Ok (n : Numeral) : Prop := Digits n.whole ∧ ∀ f ∈ n.fraction, Digits f

instance instDecidableNumeralOk (n : Numeral) : Decidable n.Ok := by unfold Numeral.Ok; infer_instance

/-- The digits after the point. -/
def Numeral.places (n : Numeral) : Str := n.fraction.getD []

/-- How the numeral is written. -/
def Numeral.text (n : Numeral) : Str :=
  n.sign.text ++ n.whole ++ (match n.fraction with | none => [] | some f => '.' :: f)

/-- The number denoted, times ten to the number of places. -/
def Numeral.unscaled (n : Numeral) : Int := n.sign.apply (decimalValue (n.whole ++ n.places))

/-- `q` hundredths are the number denoted by `n`. -/
def Numeral.IsHundredths (n : Numeral) (q : Int) : Prop := q * 10 ^ n.places.length = 100 * n.unscaled

instance instDecidableIsHundredths (n : Numeral) (q : Int) : Decidable (n.IsHundredths q) := by unfold Numeral.IsHundredths; infer_instance

/-- No fraction, or two places: a number of hundredths. -/
def Numeral.Money (n : Numeral) : Prop := ∀ f ∈ n.fraction, f.length = 2

instance instDecidableNumeralMoney (n : Numeral) : Decidable n.Money := by unfold Numeral.Money; infer_instance

/-- The number of hundredths denoted by a numeral without a fraction or with two places. -/
def Numeral.hundredths (n : Numeral) : Int := n.sign.apply (decimalValue n.whole * 100 + decimalValue n.places)

/-- The values an int64 can hold. -/
def Int64Range (v : Int) : Prop := -2 ^ 63 ≤ v ∧ v < 2 ^ 63

instance (v : Int) : Decidable (Int64Range v) := by unfold Int64Range; infer_instance

end Gledger
