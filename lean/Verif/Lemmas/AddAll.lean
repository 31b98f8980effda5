import Verif.Lemmas.Calls
import Verif.Spec.Transactions

namespace Gledger

theorem addAll_append (t : Transaction) (ps qs : List Posting) :
    t.addAll (ps ++ qs) = (t.addAll ps).addAll qs := by
  simp [Transaction.addAll]

theorem addAll_amounted (t : Transaction) (ps : List Posting) (h : ∀ p ∈ ps, p.amount ≠ none) :
    t.addAll ps = { t with postings := t.postings ++ ps } := by
  induction ps generalizing t with
  | nil => simp [Transaction.addAll]
  | cons p ps ih =>
    have hp : p.amount ≠ none := h p (by simp)
    have : t.addAll (p :: ps) = Transaction.addAll { t with postings := t.postings ++ [p] } ps := by
      simp [Transaction.addAll, Transaction.addPosting, hp]
    rw [this, ih _ (fun q hq => h q (by simp [hq]))]
    simp

theorem addAll_one_elided (t : Transaction) (ht : t.elided = none) (pre post : List Posting) (p : Posting)
    (hpre : ∀ q ∈ pre, q.amount ≠ none) (hp : p.amount = none) (hpost : ∀ q ∈ post, q.amount ≠ none) :
    t.addAll (pre ++ p :: post) =
      { t with postings := t.postings ++ (pre ++ p :: post), elided := some (t.postings ++ pre).length } := by
  rw [addAll_append, addAll_amounted t pre hpre]
  have : Transaction.addAll { t with postings := t.postings ++ pre } (p :: post) =
      Transaction.addAll { t with postings := t.postings ++ pre ++ [p], elided := some (t.postings ++ pre).length } post := by
    simp [Transaction.addAll, Transaction.addPosting, hp, ht]
  rw [this, addAll_amounted _ post hpost]
  simp

theorem foldl_closeStep_commodity (ps : List Posting) (acc : Str × I64) :
    (ps.foldl closeStep acc).1 = ((writtenCommodities ps).getLast?).getD acc.1 := by
  induction ps generalizing acc with
  | nil => simp [writtenCommodities]
  | cons p ps ih =>
    rw [List.foldl_cons, ih]
    cases hp : p.amount with
    | none =>
      have hw : writtenCommodities (p :: ps) = writtenCommodities ps := by
        simp [writtenCommodities, hp]
      simp [closeStep, hp, hw]
    | some a =>
      by_cases hc : a.commodity = []
      · have hw : writtenCommodities (p :: ps) = writtenCommodities ps := by
          simp [writtenCommodities, hp, hc]
        simp [closeStep, hp, hc, hw]
      · have hw : writtenCommodities (p :: ps) = a.commodity :: writtenCommodities ps := by
          simp [writtenCommodities, hp, hc]
        have hl : 0 < a.commodity.length := List.length_pos_of_ne_nil hc
        simp only [closeStep, hp, hw, hl, if_true]
        cases hws : writtenCommodities ps with
        | nil => simp
        | cons x xs =>
          rw [List.getLast?_cons_cons, List.getLast?_eq_getLast_of_ne_nil (by simp)]
          rfl

theorem writtenCommodities_elided (pre post : List Posting) (p : Posting) (hp : p.amount = none) :
    writtenCommodities (pre ++ p :: post) = writtenCommodities (pre ++ post) := by
  simp [writtenCommodities, hp]

theorem sum_elided (pre post : List Posting) (p : Posting) (hp : p.amount = none) :
    ((pre ++ p :: post).map Posting.value).sum = ((pre ++ post).map Posting.value).sum := by
  have h0 : p.value = 0 := by simp [Posting.value, hp]
  simp [h0]

theorem modify_middle (pre post : List Posting) (p : Posting) (f : Posting → Posting) :
    (pre ++ p :: post).modify pre.length f = pre ++ f p :: post := by
  induction pre with
  | nil => simp
  | cons q pre ih => simp [ih]

end Gledger
