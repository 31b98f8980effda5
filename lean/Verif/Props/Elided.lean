/-
C04: exactly which delivered postings have no amount.
-/
import Verif.Props.Transactions

namespace Gledger

/-- An amount was left out in none of the postings; or in one, which has no amount exactly if the others sum to zero. -/
def Transaction.LeftOut (t : Transaction) : Prop :=
  (t.elided = none ∧ ∀ p ∈ t.postings, p.amount ≠ none) ∨
  ∃ pre p post, t.elided = some pre.length ∧ t.postings = pre ++ p :: post ∧ (∀ q ∈ pre ++ post, q.amount ≠ none) ∧
    (p.amount = none ↔ ((pre ++ post).map Posting.value).sum = 0)

theorem ElidedOK.parts {t : Transaction} (h : t.ElidedOK) : (t.elided = none ∧ ∀ p ∈ t.postings, p.amount ≠ none) ∨
    ∃ pre p post, t.elided = some pre.length ∧ t.postings = pre ++ p :: post ∧ (∀ q ∈ pre ++ post, q.amount ≠ none) ∧ p.amount = none := by
  obtain ⟨h1, h2⟩ := h
  cases he : t.elided with
  | none =>
    refine Or.inl ⟨rfl, fun p hp hn => ?_⟩
    obtain ⟨j, hj, rfl⟩ := List.mem_iff_getElem.1 hp
    have := (h1 j _ (List.getElem?_eq_getElem hj)).1 hn
    rw [he] at this
    cases this
  | some i =>
    have hi : i < t.postings.length := h2 i he
    refine Or.inr ⟨t.postings.take i, t.postings[i], t.postings.drop (i + 1), ?_, by simp, ?_, ?_⟩
    · rw [List.length_take, Nat.min_eq_left (by omega)]
    · intro q hq hn
      rcases List.mem_append.1 hq with hq | hq
      · obtain ⟨j, hj, rfl⟩ := List.mem_iff_getElem.1 hq
        simp only [List.length_take] at hj
        rw [List.getElem_take] at hn
        have := (h1 j _ (List.getElem?_eq_getElem (by omega))).1 hn
        rw [he] at this
        cases this
        omega
      · obtain ⟨j, hj, rfl⟩ := List.mem_iff_getElem.1 hq
        simp only [List.length_drop] at hj
        rw [List.getElem_drop] at hn
        have := (h1 _ _ (List.getElem?_eq_getElem (by omega))).1 hn
        rw [he] at this
        have := Option.some.inj this
        omega
    · exact (h1 i _ (List.getElem?_eq_getElem hi)).2 he

theorem close_leftOut {t : Transaction} (h : t.ElidedOK) (hc : t.close.2 = none) : t.close.1.LeftOut := by
  have hs := foldl_closeStep_sum t.postings ([], 0)
  simp only [zero_add] at hs
  rw [close_eq] at *
  rcases ElidedOK.parts h with ⟨h1, h2⟩ | ⟨pre, p, post, h1, h2, h3, h4⟩
  · by_cases hz : (t.postings.foldl closeStep ([], 0)).2 ≠ 0
    · rw [if_pos hz, h1] at hc
      cases hc
    · rw [if_neg hz]
      exact Or.inl ⟨h1, h2⟩
  · right
    have hsum : (t.postings.map Posting.value).sum = ((pre ++ post).map Posting.value).sum := by rw [h2, sum_elided _ _ _ h4]
    by_cases hz : (t.postings.foldl closeStep ([], 0)).2 ≠ 0
    · rw [if_pos hz, h1]
      simp only
      refine ⟨pre, _, post, rfl, by rw [h2, modify_middle], h3, ?_⟩
      rw [hs, hsum] at hz
      exact ⟨fun h => (nomatch h), fun h => absurd h hz⟩
    · rw [if_neg hz]
      refine ⟨pre, p, post, h1, h2, h3, ?_⟩
      rw [hs, hsum] at hz
      exact ⟨fun _ => not_not.1 hz, fun _ => h4⟩

/-- Exactly which postings of a transaction handed to a handler have no amount: the one in which it was left out, if the others sum to zero. -/
theorem C04_exactly_partial [Unicode] (fs : FileSystem) (H : Handlers σ) (maxOpen : Nat) (bytes : List UInt8) (path : Str) (u : σ) :
    ∀ c ∈ callsOf fs H maxOpen bytes path u, c.transaction.LeftOut := by
  refine calls_all (P := Transaction.LeftOut) ?_ fs H maxOpen bytes path u
  intro t cur budget h hok
  rw [endNormal_eq] at *
  have hr1 : (addLast cur t).1.ElidedOK := by
    cases cur
    · exact h
    · exact h.addPosting _
  generalize addLast cur t = r at hok hr1
  obtain ⟨t', _ | e⟩ := r
  · simp only at hok ⊢
    apply close_leftOut _ hok
    split
    · exact Transaction.ElidedOK.addPosting hr1 _
    · exact hr1
  · simp at hok

/-- Left out and inferred; left out and missing; not left out. -/
example :
    letI := asciiUnicode
    (callsOf noFiles recorder 1 (utf8 "2020-01-01 x\n  A  1\n  C\n\n2020-01-01 x\n  A  1\n  B  -1\n  C\n\n2020-01-01 x\n  A  1\n  B  -1\n") (str "f") []).map
      (fun c => (c.transaction.elided, c.transaction.postings.map fun p => p.amount.map (·.quantity))) =
    [(some 1, [some 100, some (-100)]), (some 2, [some 100, some (-100), none]), (none, [some 100, some (-100)])] := by
  decide

end Gledger
