import Verif.Lemmas.ParserInv
import Verif.Spec.Delivery
import Mathlib.Tactic.Ring

namespace Gledger

/-- The elided posting, if any, is the only posting without an amount. -/
def Transaction.ElidedOK (t : Transaction) : Prop :=
  (∀ i p, t.postings[i]? = some p → (p.amount = none ↔ t.elided = some i)) ∧
    ∀ i, t.elided = some i → i < t.postings.length

theorem Transaction.ElidedOK.empty : Transaction.ElidedOK {} := by
  constructor <;> simp

theorem Transaction.ElidedOK.addPosting {t : Transaction} (h : t.ElidedOK) (p : Posting) : (t.addPosting p).1.ElidedOK := by
  obtain ⟨h1, h2⟩ := h
  unfold Transaction.addPosting
  by_cases hp : p.amount = none
  · rw [if_pos hp]
    by_cases he : t.elided ≠ none
    · rw [if_pos he]; exact ⟨h1, h2⟩
    · rw [if_neg he]
      have he' : t.elided = none := by simpa using he
      constructor
      · intro i q hq
        simp only [Option.some.injEq]
        rw [List.getElem?_append] at hq
        split at hq
        · rename_i hlt
          have := h1 i q hq
          rw [he'] at this
          simp only [reduceCtorEq, iff_false] at this
          constructor
          · intro h; exact absurd h this
          · intro h; omega
        · rename_i hlt
          have hi : i = t.postings.length := by
            by_contra hne
            have : 1 ≤ i - t.postings.length := by omega
            rw [List.getElem?_eq_none (by simpa using this)] at hq
            cases hq
          subst hi
          simp only [Nat.sub_self, List.getElem?_cons_zero, Option.some.injEq] at hq
          subst hq
          simp [hp]
      · intro i hi
        simp only [Option.some.injEq] at hi
        simp only [List.length_append, List.length_cons, List.length_nil]; omega
  · rw [if_neg hp]
    constructor
    · intro i q hq
      simp only at hq ⊢
      rw [List.getElem?_append] at hq
      split at hq
      · exact h1 i q hq
      · rename_i hlt
        have hi : i = t.postings.length := by
          by_contra hne
          have : 1 ≤ i - t.postings.length := by omega
          rw [List.getElem?_eq_none (by simpa using this)] at hq
          cases hq
        subst hi
        simp only [Nat.sub_self, List.getElem?_cons_zero, Option.some.injEq] at hq
        subst hq
        constructor
        · intro h; exact absurd h hp
        · intro h; have := h2 _ h; omega
    · intro i hi
      have := h2 i hi
      simp only [List.length_append, List.length_cons, List.length_nil]; omega

theorem foldl_closeStep_sum (ps : List Posting) (acc : Str × I64) :
    (ps.foldl closeStep acc).2 = acc.2 + (ps.map Posting.value).sum := by
  induction ps generalizing acc with
  | nil => simp
  | cons p ps ih =>
    rw [List.foldl_cons, ih]
    simp only [List.map_cons, List.sum_cons]
    unfold closeStep Posting.value
    cases p.amount <;> simp [BitVec.add_assoc]

theorem sum_modify (ps : List Posting) (i : Nat) (p : Posting) (a : Amount) (hi : ps[i]? = some p)
    (hp : p.amount = none) :
    ((ps.modify i fun p => { p with amount := some a }).map Posting.value).sum =
      (ps.map Posting.value).sum + a.quantity := by
  induction ps generalizing i with
  | nil => simp at hi
  | cons q ps ih =>
    cases i with
    | zero =>
      simp only [List.getElem?_cons_zero, Option.some.injEq] at hi
      subst hi
      simp only [List.modify_zero_cons, List.map_cons, List.sum_cons, Posting.value, hp]
      ring
    | succ i =>
      simp only [List.getElem?_cons_succ] at hi
      simp only [List.modify_succ_cons, List.map_cons, List.sum_cons]
      rw [ih i hi, BitVec.add_assoc]

theorem close_eq (t : Transaction) :
    t.close =
      if (t.postings.foldl closeStep ([], 0)).2 ≠ 0 then
        match t.elided with
        | none => (t, some .unbalanced)
        | some i =>
          ({ t with postings := t.postings.modify i fun p =>
              { p with amount := some ⟨(t.postings.foldl closeStep ([], 0)).1,
                -(t.postings.foldl closeStep ([], 0)).2⟩ } }, none)
      else (t, none) := rfl

theorem close_balanced {t : Transaction} (h : t.ElidedOK) (hc : t.close.2 = none) : t.close.1.Balanced := by
  rw [close_eq] at *
  have hs := foldl_closeStep_sum t.postings ([], 0)
  simp only [zero_add] at hs
  by_cases hne : (t.postings.foldl closeStep ([], 0)).2 ≠ 0
  · rw [if_pos hne] at *
    cases he : t.elided with
    | none => rw [he] at hc; simp at hc
    | some i =>
      obtain ⟨h1, h2⟩ := h
      have hlt := h2 i he
      have hget : t.postings[i]? = some t.postings[i] := List.getElem?_eq_getElem hlt
      have := sum_modify t.postings i _ ⟨(t.postings.foldl closeStep ([], 0)).1, -(t.postings.foldl closeStep ([], 0)).2⟩
        hget ((h1 i _ hget).2 he)
      unfold Transaction.Balanced
      simp only
      rw [this, ← hs]
      ring
  · rw [if_neg hne]
    unfold Transaction.Balanced
    rw [← hs]
    simpa using hne

/-- Invariant of the builder. -/
def Builder.OK (b : Builder) : Prop :=
  (∀ t, b.transaction = some t → t.ElidedOK) ∧ (∀ pt, b.periodic = some pt → pt.transaction.ElidedOK)

theorem Builder.OK.target {b : Builder} (h : b.OK) {t : Transaction} (ht : b.target = some t) : t.ElidedOK := by
  unfold Builder.target at ht
  cases hb : b.ttype <;> rw [hb] at ht <;> simp only at ht
  · exact h.1 t ht
  · cases hp : b.periodic with
    | none => rw [hp] at ht; simp at ht
    | some pt => rw [hp] at ht; simp only [Option.map_some, Option.some.injEq] at ht; rw [← ht]; exact h.2 pt hp

theorem Builder.OK.setTarget {b : Builder} (h : b.OK) {t : Transaction} (ht : t.ElidedOK) : (b.setTarget t).OK := by
  unfold Builder.setTarget
  cases b.ttype
  · exact ⟨fun t' h' => by simp only [Option.some.injEq] at h'; rw [← h']; exact ht, h.2⟩
  · refine ⟨h.1, fun pt hpt => ?_⟩
    simp only [Option.map_eq_some_iff] at hpt
    obtain ⟨p, _, rfl⟩ := hpt
    exact ht

theorem Transaction.ElidedOK.congr {t t' : Transaction} (h : t.ElidedOK) (hp : t'.postings = t.postings)
    (he : t'.elided = t.elided) : t'.ElidedOK := by
  unfold Transaction.ElidedOK
  rw [hp, he]
  exact h

theorem Builder.OK.begin {b : Builder} (h : b.OK) (t : TransactionType) : (b.begin t).OK := by
  cases t
  · exact ⟨fun t' h' => by simp only [Builder.begin, Option.some.injEq] at h'; rw [← h']; exact Transaction.ElidedOK.empty, h.2⟩
  · exact ⟨h.1, fun t' h' => by simp only [Builder.begin, Option.some.injEq] at h'; rw [← h']; exact Transaction.ElidedOK.empty⟩

theorem Builder.OK.buildNormal {b : Builder} (h : b.OK) (item : ItemType) (content : Str) :
    (b.buildNormal item content).1.OK := by
  have hset : ∀ t t', b.target = some t → t'.postings = t.postings → t'.elided = t.elided → (b.setTarget t').OK :=
    fun t t' ht hp he => h.setTarget ((h.target ht).congr hp he)
  have htr : ∀ t t', b.transaction = some t → t'.postings = t.postings → t'.elided = t.elided →
      ({ b with transaction := some t' } : Builder).OK := by
    intro t t' ht hp he
    exact ⟨fun t'' h'' => by simp only [Option.some.injEq] at h''; rw [← h'']; exact (h.1 t ht).congr hp he, h.2⟩
  have hcur : ∀ c, ({ b with current := c } : Builder).OK := fun c => h
  cases item <;> simp only [Builder.buildNormal]
  case transactionHeaderCommentItem =>
    split
    · exact h
    · next hh => exact htr _ _ hh rfl rfl
  case commentItem =>
    split
    · exact h
    · split
      · exact hcur _
      · split
        · exact h
        · next hh => exact htr _ _ hh rfl rfl
  case dateItem =>
    split
    · exact h
    · split
      · exact h
      · next hh => exact hset _ _ hh rfl rfl
  case stateItem =>
    split
    · exact h
    · split
      · exact h
      · split
        · exact h
        · next hh => exact hset _ _ hh rfl rfl
  case payeeItem =>
    split
    · exact h
    · split
      · exact h
      · next hh => exact hset _ _ hh rfl rfl
  case accountItem =>
    split
    · exact h
    · split
      · exact h
      · split
        · split
          · exact h
          · rename_i t ht
            exact h.setTarget ((h.target ht).addPosting _)
        · exact hcur _
  case commodityItem =>
    split
    · exact h
    · split
      · exact h
      · exact hcur _
  case amountItem =>
    split
    · exact h
    · split
      · exact h
      · split <;> exact hcur _
  all_goals exact h

theorem Builder.OK.build {b : Builder} (h : b.OK) (item : ItemType) (content : Str) :
    (b.build item content).1.OK := by
  have key : ∀ r : Step Builder, r.1.OK → (r.andThen fun b => ({ b with prev := some item }, none)).1.OK := by
    rintro ⟨b', _ | e⟩ hb
    · exact hb
    · exact hb
  unfold Builder.build
  cases b.ttype <;> apply key
  · exact h.buildNormal item content
  · simp only [Builder.buildPeriodic]
    split
    · exact h
    · rename_i pt hpt
      split
      · exact ⟨h.1, fun p hp => by simp only [Option.some.injEq] at hp; rw [← hp]; exact h.2 pt hpt⟩
      · exact h.buildNormal _ content

/-- Adding the last open posting, if any. -/
def addLast (cur : Option Posting) (t : Transaction) : Transaction × Option Err :=
  match cur with
  | none => (t, none)
  | some p => t.addPosting p

theorem endNormal_eq (cur : Option Posting) (budget : Bool) (t : Transaction) :
    endNormalTransaction cur budget t =
      match addLast cur t with
      | (t, some e) => (t, some e)
      | (t, none) =>
        (if budget && !(t.postings.any fun p => p.accountPath = budgetRootID) then
          (t.addPosting { linked := true, accountPath := budgetRootID }).1 else t).close := rfl

theorem endNormal_ok {t : Transaction} (h : t.ElidedOK) (cur : Option Posting) (budget : Bool)
    (hok : (endNormalTransaction cur budget t).2 = none) : (endNormalTransaction cur budget t).1.Balanced := by
  rw [endNormal_eq] at *
  have hr1 : (addLast cur t).1.ElidedOK := by
    cases cur
    · exact h
    · exact h.addPosting _
  generalize addLast cur t = r at hok hr1
  obtain ⟨t', _ | e⟩ := r
  · simp only at hok ⊢
    apply close_balanced _ hok
    split
    · exact Transaction.ElidedOK.addPosting hr1 _
    · exact hr1
  · simp at hok

/-- After a successful close all postings have amounts, or exactly one lacks it. -/
theorem close_elided {t : Transaction} (h : t.ElidedOK) (hc : t.close.2 = none) :
    (∀ p ∈ t.close.1.postings, p.amount ≠ none) ∨
      ∃ i, i < t.close.1.postings.length ∧
        ∀ j p, t.close.1.postings[j]? = some p → (p.amount = none ↔ i = j) := by
  obtain ⟨h1, h2⟩ := h
  rw [close_eq] at *
  by_cases hne : (t.postings.foldl closeStep ([], 0)).2 ≠ 0
  · rw [if_pos hne] at *
    cases he : t.elided with
    | none => rw [he] at hc; simp at hc
    | some i =>
      left
      intro p hp
      simp only at hp
      obtain ⟨j, hj⟩ := List.mem_iff_getElem?.1 hp
      rw [List.getElem?_modify] at hj
      by_cases hij : i = j
      · subst hij
        cases hq : t.postings[i]? with
        | none => rw [hq] at hj; simp at hj
        | some q =>
          rw [hq] at hj
          simp only [if_true, Option.map_eq_map, Option.map_some, Option.some.injEq] at hj
          rw [← hj]; simp
      · simp only [hij, if_false] at hj
        have hj' : t.postings[j]? = some p := by
          cases hq : t.postings[j]? with
          | none => rw [hq] at hj; simp at hj
          | some q => rw [hq] at hj; simpa using hj
        intro hn
        have := (h1 j p hj').1 hn
        rw [he] at this
        simp only [Option.some.injEq] at this
        exact hij this
  · rw [if_neg hne]
    cases he : t.elided with
    | none =>
      left
      intro p hp hn
      obtain ⟨j, hj⟩ := List.mem_iff_getElem?.1 hp
      have := (h1 j p hj).1 hn
      rw [he] at this
      cases this
    | some i =>
      right
      refine ⟨i, h2 i he, fun j p hj => ?_⟩
      rw [h1 j p hj, he]
      simp

theorem endNormal_elided {t : Transaction} (h : t.ElidedOK) (cur : Option Posting) (budget : Bool)
    (hok : (endNormalTransaction cur budget t).2 = none) :
    (∀ p ∈ (endNormalTransaction cur budget t).1.postings, p.amount ≠ none) ∨
      ∃ i, i < (endNormalTransaction cur budget t).1.postings.length ∧
        ∀ j p, (endNormalTransaction cur budget t).1.postings[j]? = some p → (p.amount = none ↔ i = j) := by
  rw [endNormal_eq] at *
  have hr1 : (addLast cur t).1.ElidedOK := by
    cases cur
    · exact h
    · exact h.addPosting _
  generalize addLast cur t = r at hok hr1
  obtain ⟨t', _ | e⟩ := r
  · simp only at hok ⊢
    apply close_elided _ hok
    split
    · exact Transaction.ElidedOK.addPosting hr1 _
    · exact hr1
  · simp at hok

end Gledger
