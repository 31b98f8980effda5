import Verif.Lemmas.AddAll

set_option maxRecDepth 100000

namespace Gledger

variable {σ : Type}

/-! ### C01 Delivered transactions balance -/

/-- Whatever the file system, the handlers, the file contents: every transaction handed to a handler,
before the end or before the failure, has postings that sum to zero. -/
theorem C01_delivered_balance [Unicode] (fs : FileSystem) (H : Handlers σ) (maxOpen : Nat)
    (bytes : List UInt8) (path : Str) (u : σ) :
    ∀ c ∈ callsOf fs H maxOpen bytes path u, c.transaction.Balanced :=
  calls_all (fun _ cur budget h => endNormal_ok h cur budget) fs H maxOpen bytes path u

/-- Two transactions are delivered, a normal one with an inferred amount and a budget one; a third does not
balance and ends the parse. -/
example :
    letI := asciiUnicode
    let text := utf8 "2020-01-01 x\n  A  1\n  B\n\n~ 2020-02\n  E  3\n\n2020-01-01 x\n  A  1\n  B  2\n\n"
    (callsOf noFiles recorder 1 text (str "f") []).map (fun c => c.transaction.postings.map Posting.value) =
        [[100, -100], [300, -300]] ∧
      failureOf noFiles recorder 1 text (str "f") [] =
        some (.err (.errorAt (.atLine (str "f") 11 .unbalanced))) := by decide

/-! ### C02 Elided amount is inferred exactly -/

/-- A transaction whose postings (added in order) are `pre ++ p :: post`, only `p` without amount, and whose
amounts sum to `s ≠ 0`: closing succeeds, gives `p` the amount `-s` in the last commodity written, and
changes nothing else. -/
theorem C02_elided_inferred (t : Transaction) (h0 : t.postings = []) (h1 : t.elided = none)
    (pre post : List Posting) (p : Posting) (hpre : ∀ q ∈ pre, q.amount ≠ none) (hp : p.amount = none)
    (hpost : ∀ q ∈ post, q.amount ≠ none) (hs : ((pre ++ post).map Posting.value).sum ≠ 0) :
    let added := t.addAll (pre ++ p :: post)
    added.postings = pre ++ p :: post ∧
    added.close =
      (let inferred : Amount := ⟨lastCommodity (pre ++ post), -((pre ++ post).map Posting.value).sum⟩
       { added with postings := pre ++ { p with amount := some inferred } :: post }, none) ∧
    added.date = t.date ∧ added.state = t.state ∧ added.payee = t.payee ∧
    added.headerNote = t.headerNote ∧ added.notes = t.notes := by
  intro added
  have hadd : added = { t with postings := pre ++ p :: post, elided := some pre.length } := by
    have := addAll_one_elided t h1 pre post p hpre hp hpost
    simpa [h0] using this
  refine ⟨by rw [hadd], ?_, by rw [hadd], by rw [hadd], by rw [hadd], by rw [hadd], by rw [hadd]⟩
  rw [hadd, close_eq]
  simp only
  have hsum := foldl_closeStep_sum (pre ++ p :: post) ([], 0)
  have hcom := foldl_closeStep_commodity (pre ++ p :: post) ([], 0)
  rw [sum_elided _ _ _ hp] at hsum
  rw [writtenCommodities_elided _ _ _ hp] at hcom
  simp only [zero_add] at hsum
  rw [if_pos (by rw [hsum]; exact hs), hsum, hcom, modify_middle]
  rfl

/-- Hypotheses are met by: 1 in "£", an elided posting, 2 without a commodity. -/
example :
    let a : Posting := { accountPath := str "A", amount := some ⟨str "£", 100⟩ }
    let b : Posting := { accountPath := str "B" }
    let c : Posting := { accountPath := str "C", amount := some ⟨[], 200⟩ }
    (([a] ++ [c]).map Posting.value).sum ≠ 0 ∧
    (({} : Transaction).addAll [a, b, c]).close.1.postings =
      [a, { b with amount := some ⟨str "£", -300⟩ }, c] := by decide

/-! ### C04 Delivered postings all carry an amount (false) -/

/-- The statement as a user would want it fails: the third posting has no amount. -/
theorem C04_all_amounts_false :
    ¬ ∀ (U : Unicode) (bytes : List UInt8), ∀ c ∈ @callsOf _ U noFiles recorder 1 bytes (str "f") [],
      ∀ p ∈ c.transaction.postings, p.amount ≠ none := by
  intro h
  have h1 := h asciiUnicode (utf8 "2020-01-01 x\n  A  1\n  B  -1\n  C\n")
  revert h1
  decide

/-- What holds: a delivered transaction has at most one posting without an amount, and then its amounts
already sum to zero. Missing for the full claim: that posting should get the amount 0. -/
theorem C04_all_amounts_partial [Unicode] (fs : FileSystem) (H : Handlers σ) (maxOpen : Nat)
    (bytes : List UInt8) (path : Str) (u : σ) :
    ∀ c ∈ callsOf fs H maxOpen bytes path u,
      (∀ p ∈ c.transaction.postings, p.amount ≠ none) ∨
      ∃ pre p post, c.transaction.postings = pre ++ p :: post ∧ p.amount = none ∧
        (∀ q ∈ pre ++ post, q.amount ≠ none) ∧ ((pre ++ post).map Posting.value).sum = 0 := by
  refine calls_all (P := fun t => (∀ p ∈ t.postings, p.amount ≠ none) ∨
      ∃ pre p post, t.postings = pre ++ p :: post ∧ p.amount = none ∧
        (∀ q ∈ pre ++ post, q.amount ≠ none) ∧ ((pre ++ post).map Posting.value).sum = 0)
    ?_ fs H maxOpen bytes path u
  intro t cur budget h hok
  have hbal := endNormal_ok h cur budget hok
  have hel := endNormal_elided h cur budget hok
  generalize (endNormalTransaction cur budget t).1 = t' at hbal hel
  obtain h1 | ⟨i, hi, h2⟩ := hel
  · exact Or.inl h1
  · right
    refine ⟨t'.postings.take i, t'.postings[i], t'.postings.drop (i + 1), ?_, ?_, ?_, ?_⟩
    · simp
    · exact (h2 i _ (List.getElem?_eq_getElem hi)).2 rfl
    · intro q hq hn
      rcases List.mem_append.1 hq with hq | hq
      · obtain ⟨j, hj, rfl⟩ := List.mem_iff_getElem.1 hq
        simp only [List.length_take] at hj
        rw [List.getElem_take] at hn
        have := (h2 j _ (List.getElem?_eq_getElem (by omega))).1 hn
        omega
      · obtain ⟨j, hj, rfl⟩ := List.mem_iff_getElem.1 hq
        simp only [List.length_drop] at hj
        rw [List.getElem_drop] at hn
        have := (h2 _ _ (List.getElem?_eq_getElem (by omega))).1 hn
        omega
    · have hn := (h2 i _ (List.getElem?_eq_getElem hi)).2 rfl
      rw [← sum_elided _ _ _ hn]
      have : t'.postings.take i ++ t'.postings[i] :: t'.postings.drop (i + 1) = t'.postings := by simp
      rw [this]
      exact hbal

/-- Both alternatives occur. -/
example :
    letI := asciiUnicode
    (callsOf noFiles recorder 1 (utf8 "2020-01-01 x\n  A  1\n  B  -1\n  C\n\n2020-01-01 x\n  A  1\n  B\n") (str "f") []).map
      (fun c => c.transaction.postings.map (·.amount)) =
      [[some ⟨[], 100⟩, some ⟨[], -100⟩, none], [some ⟨[], 100⟩, some ⟨[], -100⟩]] := by decide

/-! ### C62 Each commodity balances on its own (false) -/

/-- One dollar against minus one pound is delivered. -/
theorem C62_per_commodity_false :
    ¬ ∀ (U : Unicode) (bytes : List UInt8), ∀ c ∈ @callsOf _ U noFiles recorder 1 bytes (str "f") [],
      c.transaction.BalancedPerCommodity := by
  intro h
  have h1 := h asciiUnicode (utf8 "2020-01-01 x\n  A  $1\n  B  GBP-1\n")
  have h2 : ∀ c ∈ @callsOf _ asciiUnicode noFiles recorder 1 (utf8 "2020-01-01 x\n  A  $1\n  B  GBP-1\n") (str "f") [],
      ((inCommodity (str "$") c.transaction.postings).map Posting.value).sum = 0 := fun c hc => h1 c hc _
  revert h2
  decide

/-- What holds: a delivered transaction all of whose amounts are in one commodity balances per commodity.
Missing: transactions with several commodities, for which it is false. -/
theorem C62_per_commodity_partial [Unicode] (fs : FileSystem) (H : Handlers σ) (maxOpen : Nat)
    (bytes : List UInt8) (path : Str) (u : σ) (c : Call) (hc : c ∈ callsOf fs H maxOpen bytes path u)
    (k : Str) (hk : ∀ p ∈ c.transaction.postings, ∀ a, p.amount = some a → a.commodity = k) :
    c.transaction.BalancedPerCommodity := by
  have hbal := C01_delivered_balance fs H maxOpen bytes path u c hc
  unfold Transaction.Balanced at hbal
  intro d
  by_cases hd : d = k
  · subst hd
    rw [← hbal]
    clear hbal
    generalize c.transaction.postings = ps at hk
    induction ps with
    | nil => rfl
    | cons p ps ih =>
      have ih := ih (fun q hq => hk q (by simp [hq]))
      cases ha : p.amount with
      | none =>
        have h1 : inCommodity d (p :: ps) = inCommodity d ps := by simp [inCommodity, ha]
        rw [h1, ih]
        simp [Posting.value, ha]
      | some a =>
        have h2 := hk p (by simp) a ha
        have h1 : inCommodity d (p :: ps) = p :: inCommodity d ps := by simp [inCommodity, ha, h2]
        rw [h1, List.map_cons, List.sum_cons, ih, List.map_cons, List.sum_cons]
  · have : inCommodity d c.transaction.postings = [] := by
      unfold inCommodity
      rw [List.filter_eq_nil_iff]
      intro p hp
      simp only [decide_eq_true_eq]
      intro h
      cases ha : p.amount with
      | none => rw [ha] at h; simp at h
      | some a =>
        rw [ha] at h
        simp only [Option.map_some, Option.some.injEq] at h
        exact hd (h ▸ hk p hp a ha)
    rw [this]; rfl

/-- A delivered transaction in one commodity. -/
example :
    letI := asciiUnicode
    (callsOf noFiles recorder 1 (utf8 "2020-01-01 x\n  A  $1\n  B  $-3\n  C\n") (str "f") []).map
      (fun c => c.transaction.postings.map (·.amount)) =
      [[some ⟨str "$", 100⟩, some ⟨str "$", -300⟩, some ⟨str "$", 200⟩]] := by decide

end Gledger
