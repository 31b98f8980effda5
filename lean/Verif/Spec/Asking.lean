/-
Specification for C125: asking about an account or a category.
-/
import Verif.Spec.Local

namespace Gledger

/-- The same without filters. -/
def Env.unfiltered (e : Env) : Env := { e with filters := [] }

/-- The filters leave out nothing that is posted to an account or below it. -/
def Env.AsksFor (e : Env) (calls : List Call) (cs : List Str) : Prop :=
  ∀ t f, Call.normal t f ∈ calls → e.withinDateRange t = .ok true → ∀ p ∈ t.postings, cs <+: p.components →
    WholeSelected e.filters t ∨ ∃ g ∈ e.filters, g.Takes p

/-- They take nothing else. -/
def Env.AsksOnlyFor (e : Env) (calls : List Call) (cs : List Str) : Prop := ∀ p ∈ e.selected calls, cs <+: p.components

end Gledger
