/-
Specification for C122 and C123: requests that ask for more than others, and requests that share out another one.
-/
import Verif.Spec.Balance
import Verif.Spec.Commands

namespace Gledger

/-- The flags and filters of `e'` let through whatever those of `e` do: no day is lost, and there are no filters, or more of them (where there were some). -/
structure Env.Asks (e e' : Env) : Prop where
  days : ∀ t, e.InRange t → e'.InRange t
  filters : e'.filters = [] ∨ e.filters ≠ [] ∧ e.filters ⊆ e'.filters

/-- Two requests with the same filters that share out what a third one is about. -/
structure SharedOut (e : Env) (calls : List Call) (e₁ : Env) (calls₁ : List Call) (e₂ : Env) (calls₂ : List Call) : Prop where
  filters : e₁.filters = e.filters ∧ e₂.filters = e.filters
  ranged : (e.ranged calls).Perm (e₁.ranged calls₁ ++ e₂.ranged calls₂)
  picked : (e.picked calls).Perm (e₁.picked calls₁ ++ e₂.picked calls₂)
  selected : (e.selected calls).Perm (e₁.selected calls₁ ++ e₂.selected calls₂)

end Gledger
