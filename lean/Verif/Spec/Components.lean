/-
Specification: which names the `PathComponents` of an account hold when accounts share the arrays behind them.
-/
import Verif.Spec.Accounts

namespace Gledger

/-- The size of the array behind the components of an account at this depth: the first power of two that is not below it. -/
def arrayRoom : Nat → Nat
  | 0 => 1
  | d + 1 => if d + 1 ≤ arrayRoom d then arrayRoom d else 2 * arrayRoom d

/-- The depth of the account for which that array was made: 1, 2, 3, 3, 5, 5, 5, 5, 9, … -/
def arrayStart (d : Nat) : Nat := arrayRoom d / 2 + 1

/-- The component at position `i` of the account with names `cs`, as long as the accounts made before `t` are all there are. The accounts down from one for
which an array was made share that array until it is full. Each wrote its name at the end of its own components, over what another of the same depth had written. What
comes before the name of the account for which the array was made was copied when that was made. -/
inductive ShownComponent (h : Heap) : Ref → List Str → Nat → Str → Prop
  | own {t : Ref} {cs : List Str} {i : Nat} {c : Str} (hi : i + 1 = arrayStart cs.length) (hc : cs[i]? = some c) : ShownComponent h t cs i c
  | copied {t x : Ref} {cs : List Str} {i : Nat} {c : Str} (hi : i + 1 < arrayStart cs.length) (hx : h.at (cs.take (arrayStart cs.length)) = some x)
      (hc : ShownComponent h x (cs.take (arrayStart cs.length - 1)) i c) : ShownComponent h t cs i c
  | shared {t y : Ref} {cs ds : List Str} {i : Nat} {c : Str} (hi : arrayStart cs.length ≤ i) (hl : i < cs.length) (hy : h.at ds = some y)
      (hp : cs.take (arrayStart cs.length) <+: ds) (hd : ds.length = i + 1) (ht : y < t)
      (hmax : ∀ es z, h.at es = some z → cs.take (arrayStart cs.length) <+: es → es.length = i + 1 → z < t → z ≤ y) (hc : ds[i]? = some c) :
      ShownComponent h t cs i c

end Gledger
