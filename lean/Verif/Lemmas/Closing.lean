import Verif.Lemmas.Blocks
import Verif.Lemmas.Close

/-! Ending a written entry. -/

namespace Gledger

variable {σ : Type}

theorem settle_snoc (t : Transaction) (p : Posting) (qs : List Posting) (q : Posting) :
    settle t p (qs ++ [q]) = (pend (settle t p qs).1 (settle t p qs).2, q) := by
  induction qs generalizing t p with
  | nil => rfl
  | cons r qs ih => exact ih _ _

theorem settle_pend (t : Transaction) (p : Posting) (qs : List Posting) (h : ∀ q ∈ qs, q.accountPath ≠ []) :
    pend (settle t p qs).1 (settle t p qs).2 = (pend t p).addAll qs := by
  induction qs generalizing t p with
  | nil => rfl
  | cons r qs ih =>
    rw [settle, ih _ _ fun q hq => h q (by simp [hq])]
    simp [pend, h r (by simp), Transaction.addAll]

theorem settle_fresh (t : Transaction) (qs : List Posting) (q : Posting) (h : ∀ r ∈ qs, r.accountPath ≠ []) :
    settle t { linked := true } (qs ++ [q]) = (t.addAll qs, q) := by
  rw [settle_snoc, settle_pend _ _ _ h]
  rfl

theorem addAll_elided (t : Transaction) (ps : List Posting) (h : ∀ p ∈ ps, p.amount ≠ none) : (t.addAll ps).elided = t.elided := by
  rw [addAll_amounted t ps h]

/-- One missing amount, or none. -/
theorem elided_split {ps : List Posting} (h : (ps.filter fun p => p.amount = none).length ≤ 1) :
    (∀ p ∈ ps, p.amount ≠ none) ∨ ∃ pre p post, ps = pre ++ p :: post ∧ p.amount = none ∧ (∀ q ∈ pre, q.amount ≠ none) ∧
      ∀ q ∈ post, q.amount ≠ none := by
  induction ps with
  | nil => left; simp
  | cons q qs ih =>
    by_cases hq : q.amount = none
    · right
      refine ⟨[], q, qs, rfl, hq, by simp, ?_⟩
      rw [List.filter_cons_of_pos (by simpa using hq)] at h
      have : qs.filter (fun p => decide (p.amount = none)) = [] := by
        rw [← List.length_eq_zero_iff]; simpa using h
      intro r hr hn
      exact (List.filter_eq_nil_iff.1 this) r hr (by simpa using hn)
    · rw [List.filter_cons_of_neg (by simpa using hq)] at h
      rcases ih h with h1 | ⟨pre, p, post, rfl, h2, h3, h4⟩
      · left
        intro r hr
        rcases List.mem_cons.1 hr with rfl | hr
        · exact hq
        · exact h1 r hr
      · right
        refine ⟨q :: pre, p, post, rfl, h2, ?_, h4⟩
        intro r hr
        rcases List.mem_cons.1 hr with rfl | hr
        · exact hq
        · exact h3 r hr

theorem findIdx_none {ps : List Posting} (h : ∀ p ∈ ps, p.amount ≠ none) : (ps.findIdx? fun p => p.amount = none) = none := by
  rw [List.findIdx?_eq_none_iff]
  intro p hp
  simpa using h p hp

theorem findIdx_some {pre post : List Posting} {p : Posting} (hp : p.amount = none) (h : ∀ q ∈ pre, q.amount ≠ none) :
    ((pre ++ p :: post).findIdx? fun p => p.amount = none) = some pre.length := by
  rw [List.findIdx?_append, findIdx_none h, List.findIdx?_cons]
  simp [hp]

theorem lastCommodity_elided (pre post : List Posting) (p : Posting) (hp : p.amount = none) :
    lastCommodity (pre ++ p :: post) = lastCommodity (pre ++ post) := by
  rw [lastCommodity, writtenCommodities_elided _ _ _ hp, lastCommodity]

theorem close_of_sum_zero {t : Transaction} (h : (t.postings.map Posting.value).sum = 0) : t.close = (t, none) := by
  rw [close_eq, foldl_closeStep_sum]
  simp [h]

/-- Adding postings of which at most one lacks an amount, and closing. -/
theorem addAll_close {t : Transaction} (ht : t.postings = []) (he : t.elided = none) {ps : List Posting}
    (h1 : (ps.filter fun p => p.amount = none).length ≤ 1) (h2 : (∀ p ∈ ps, p.amount ≠ none) → (ps.map Posting.value).sum = 0) :
    (t.addAll ps).close = (t.complete ps, none) := by
  rcases elided_split h1 with hall | ⟨pre, p, post, rfl, hp, hpre, hpost⟩
  · have hs := h2 hall
    rw [addAll_amounted t ps hall, ht, List.nil_append, close_of_sum_zero hs, Transaction.complete, inferred, if_pos hs, findIdx_none hall, ← he]
  · rw [addAll_one_elided t he pre post p hpre hp hpost, ht]
    simp only [List.nil_append]
    by_cases hs : ((pre ++ p :: post).map Posting.value).sum = 0
    · rw [close_of_sum_zero hs, Transaction.complete, inferred, if_pos hs, findIdx_some hp hpre]
    · rw [close_eq, foldl_closeStep_sum, foldl_closeStep_commodity]
      simp only [zero_add]
      rw [if_pos hs]
      have hmap : (pre ++ p :: post).map (fun q => if q.amount = none then
          { q with amount := some ⟨lastCommodity (pre ++ p :: post), -((pre ++ p :: post).map Posting.value).sum⟩ } else q) =
          pre ++ { p with amount := some ⟨lastCommodity (pre ++ p :: post), -((pre ++ p :: post).map Posting.value).sum⟩ } :: post := by
        generalize (⟨lastCommodity (pre ++ p :: post), -((pre ++ p :: post).map Posting.value).sum⟩ : Amount) = a
        rw [List.map_append, List.map_cons, if_pos hp]
        congr 1
        · conv_rhs => rw [← List.map_id pre]
          exact List.map_congr_left fun q hq => if_neg (hpre q hq)
        · congr 1
          conv_rhs => rw [← List.map_id post]
          exact List.map_congr_left fun q hq => if_neg (hpost q hq)
      rw [Transaction.complete, inferred, if_neg hs, findIdx_some hp hpre, hmap, modify_middle]
      rfl

theorem addPosting_last {t : Transaction} (he : t.elided = none) {ps : List Posting} {q : Posting}
    (h1 : ((ps ++ [q]).filter fun p => p.amount = none).length ≤ 1) : (t.addAll ps).addPosting q = (t.addAll (ps ++ [q]), none) := by
  have e : t.addAll (ps ++ [q]) = ((t.addAll ps).addPosting q).1 := by simp [Transaction.addAll]
  rw [e]
  refine Prod.ext rfl ?_
  simp only
  unfold Transaction.addPosting
  by_cases hq : q.amount = none
  · have : ∀ p ∈ ps, p.amount ≠ none := by
      intro p hp hn
      rw [List.filter_append, List.length_append, List.filter_cons_of_pos (by simpa using hq)] at h1
      have : 0 < (ps.filter fun p => decide (p.amount = none)).length :=
        List.length_pos_of_mem (List.mem_filter.2 ⟨hp, by simpa using hn⟩)
      simp only [List.filter_nil, List.length_cons, List.length_nil] at h1
      omega
    rw [if_pos hq, if_neg (by rw [addAll_elided t ps this, he]; simp)]
  · rw [if_neg hq]

/-- Ending an entry whose postings close. -/
theorem endNormal_entry {t : Transaction} (ht : t.postings = []) (he : t.elided = none) {ps : List Posting} (hp : ∀ p ∈ ps, p.accountPath ≠ [])
    (h : Closes ps) :
    endNormalTransaction (some (settle t { linked := true } ps).2) false (settle t { linked := true } ps).1 = (t.complete ps, none) := by
  obtain ⟨h0, h1, h2⟩ := h
  obtain ⟨qs, q, rfl⟩ : ∃ qs q, ps = qs ++ [q] := ⟨ps.dropLast, ps.getLast h0, (List.dropLast_append_getLast h0).symm⟩
  rw [settle_fresh t qs q fun r hr => hp r (by simp [hr])]
  simp only [endNormalTransaction, addPosting_last he h1]
  exact addAll_close ht he h1 h2

theorem addAll_surplus (t : Transaction) (ps : List Posting) (he : t.elided ≠ none) :
    t.addAll ps = t.addAll (ps.filter fun q => q.amount ≠ none) := by
  induction ps generalizing t with
  | nil => rfl
  | cons p ps ih =>
    by_cases hp : p.amount = none
    · rw [List.filter_cons_of_neg (by simpa using hp), ← ih t he]
      simp [Transaction.addAll, Transaction.addPosting, hp, he]
    · rw [List.filter_cons_of_pos (by simpa using hp)]
      have h2 : (t.addPosting p).1.elided ≠ none := by simpa [Transaction.addPosting, hp] using he
      simpa [Transaction.addAll] using ih (t.addPosting p).1 h2

/-- Adding postings drops the surplus ones. -/
theorem addAll_kept (t : Transaction) (ps : List Posting) (he : t.elided = none) : t.addAll ps = t.addAll (kept ps) := by
  induction ps generalizing t with
  | nil => rfl
  | cons p ps ih =>
    by_cases hp : p.amount = none
    · rw [kept, if_pos hp]
      have h2 : (t.addPosting p).1.elided ≠ none := by simp [Transaction.addPosting, hp, he]
      simpa [Transaction.addAll] using addAll_surplus (t.addPosting p).1 ps h2
    · rw [kept, if_neg hp]
      have h2 : (t.addPosting p).1.elided = none := by simpa [Transaction.addPosting, hp] using he
      simpa [Transaction.addAll] using ih (t.addPosting p).1 h2

theorem kept_few (ps : List Posting) : ((kept ps).filter fun p => p.amount = none).length ≤ 1 := by
  induction ps with
  | nil => simp [kept]
  | cons p ps ih =>
    rw [kept]
    split
    · rename_i hp
      rw [List.filter_cons_of_pos (by simpa using hp)]
      have : ((ps.filter fun q => decide (q.amount ≠ none)).filter fun p => decide (p.amount = none)) = [] := by
        rw [List.filter_eq_nil_iff]
        intro q hq
        simpa using (List.mem_filter.1 hq).2
      rw [this]
      simp
    · rename_i hp
      rw [List.filter_cons_of_neg (by simpa using hp)]
      exact ih

theorem kept_elided {ps : List Posting} (h : ∃ p ∈ ps, p.amount = none) : ∃ p ∈ kept ps, p.amount = none := by
  induction ps with
  | nil => obtain ⟨p, hp, _⟩ := h; cases hp
  | cons q ps ih =>
    rw [kept]
    split
    · rename_i hq
      exact ⟨q, by simp, hq⟩
    · rename_i hq
      obtain ⟨p, hp, hn⟩ := h
      rcases List.mem_cons.1 hp with rfl | hp
      · exact absurd hn hq
      · obtain ⟨r, hr, h2⟩ := ih ⟨p, hp, hn⟩
        exact ⟨r, by simp [hr], h2⟩

theorem kept_of_few {ps : List Posting} (h : (ps.filter fun p => p.amount = none).length ≤ 1) : kept ps = ps := by
  induction ps with
  | nil => rfl
  | cons p ps ih =>
    rw [kept]
    split
    · rename_i hp
      rw [List.filter_cons_of_pos (by simpa using hp)] at h
      have : ps.filter (fun p => decide (p.amount = none)) = [] := by
        rw [← List.length_eq_zero_iff]; simpa using h
      rw [List.filter_eq_self.2]
      intro q hq
      simpa using (List.filter_eq_nil_iff.1 this) q hq
    · rename_i hp
      rw [List.filter_cons_of_neg (by simpa using hp)] at h
      rw [ih h]

/-- Ending an entry whose last posting has an amount while some posting has none: the surplus is dropped. -/
theorem endNormal_surplus {t : Transaction} (ht : t.postings = []) (he : t.elided = none) {qs : List Posting} {q : Posting}
    (hp : ∀ p ∈ qs, p.accountPath ≠ []) (hq : q.amount ≠ none) (h : ∃ p ∈ qs, p.amount = none) :
    endNormalTransaction (some (settle t { linked := true } (qs ++ [q])).2) false (settle t { linked := true } (qs ++ [q])).1 =
      (t.complete (kept (qs ++ [q])), none) := by
  rw [settle_fresh t qs q hp]
  have e1 : (t.addAll qs).addPosting q = (t.addAll (qs ++ [q]), none) := by
    have : t.addAll (qs ++ [q]) = ((t.addAll qs).addPosting q).1 := by simp [Transaction.addAll]
    rw [this]
    exact Prod.ext rfl (by simp [Transaction.addPosting, hq])
  simp only [endNormalTransaction, e1]
  rw [addAll_kept _ _ he]
  refine addAll_close ht he (kept_few _) fun hall => ?_
  obtain ⟨p, hp, hn⟩ := h
  obtain ⟨r, hr, h2⟩ := kept_elided (ps := qs ++ [q]) ⟨p, by simp [hp], hn⟩
  exact absurd h2 (hall r hr)

theorem endNormal_budget {ps : List Posting} (h0 : ps ≠ []) (hp : ∀ p ∈ ps, p.accountPath ≠ []) (ha : ∀ p ∈ ps, p.amount ≠ none)
    (hb : ∀ p ∈ ps, p.accountPath ≠ budgetRootID) (l : Bool) :
    endNormalTransaction (some (settle {} { linked := l } ps).2) true (settle {} { linked := l } ps).1 =
      (Transaction.complete {} (ps ++ [{ linked := true, accountPath := budgetRootID }]), none) := by
  obtain ⟨qs, q, rfl⟩ : ∃ qs q, ps = qs ++ [q] := ⟨ps.dropLast, ps.getLast h0, (List.dropLast_append_getLast h0).symm⟩
  have hset : settle {} { linked := l } (qs ++ [q]) = (Transaction.addAll {} qs, q) := by
    rw [settle_snoc, settle_pend _ _ _ fun r hr => hp r (by simp [hr])]
    rfl
  have hf : (qs ++ [q]).filter (fun p => decide (p.amount = none)) = [] := by
    rw [List.filter_eq_nil_iff]
    intro p hp'
    simpa using ha p hp'
  have h1 : ((qs ++ [q] ++ [({ linked := true, accountPath := budgetRootID } : Posting)]).filter fun p => decide (p.amount = none)).length ≤ 1 := by
    rw [List.filter_append, hf]
    simp
  rw [hset]
  have h2 : ((qs ++ [q]).filter fun p => decide (p.amount = none)).length ≤ 1 := by rw [hf]; simp
  have e2 := addPosting_last (t := {}) rfl h2
  have e1 := addPosting_last (t := {}) rfl h1
  simp only [endNormalTransaction, e2]
  rw [if_pos]
  · rw [e1]
    refine addAll_close rfl rfl h1 fun hall => ?_
    exact absurd rfl (hall { linked := true, accountPath := budgetRootID } (by simp))
  · rw [addAll_amounted _ _ ha]
    simp only [List.nil_append, Bool.true_and, Bool.not_eq_true', List.any_eq_false]
    intro p hp'
    simpa using hb p hp'

end Gledger
