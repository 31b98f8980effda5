/-
C126: how long ago the first and the last transaction were.
-/
import Verif.Spec.HowLong
import Verif.Model.Humanize
import Verif.Props.StatsText

namespace Gledger

/-- `sort.Search` on the magnitudes finds the first that is greater. -/
theorem search_magnitudes (diff : Int) (n : Nat) (hn : n ≤ 17)
    (h1 : ∀ i, i < n → ∀ m, magnitudes[i]? = some m → m.d ≤ diff) (h2 : ∀ i, n ≤ i → ∀ m, magnitudes[i]? = some m → diff < m.d) :
    sortSearch magnitudes.length (magnitudeAbove diff) = n := by
  have hf : magnitudeAbove diff = fun i => decide (n ≤ i ∧ i < 17) := by
    funext i
    unfold magnitudeAbove
    by_cases hi : i < 17
    · obtain ⟨m, hm⟩ : ∃ m, magnitudes[i]? = some m := ⟨magnitudes[i]'(by simpa [magnitudes] using hi), List.getElem?_eq_getElem _⟩
      rw [hm]
      by_cases hni : n ≤ i
      · simp [hni, hi, h2 i hni m hm]
      · have := h1 i (by omega) m hm
        simp [hni, this]
    · have hm : magnitudes[i]? = none := List.getElem?_eq_none (by simpa [magnitudes] using hi)
      rw [hm]; simp [hi]
  rw [hf]
  show sortSearch 17 _ = n
  have : ∀ n ≤ 17, (sortSearch 17 fun i => decide (n ≤ i ∧ i < 17)) = n := by decide
  exact this n hn

/-- The magnitude that `CustomRelTime` picks. -/
theorem relTime_pick (a b : Int) (albl blbl : Str) (diff : Int) (hd : diff = if b < a then saturatedSub a b else saturatedSub b a) (n : Nat) (mag : Magnitude)
    (hm : magnitudes[n]? = some mag) (h1 : ∀ i, i < n → ∀ m, magnitudes[i]? = some m → m.d ≤ diff)
    (h2 : n + 1 = 17 ∨ ∀ i, n ≤ i → ∀ m, magnitudes[i]? = some m → diff < m.d) :
    relTime a b albl blbl = sprintfRel (if b < a then blbl else albl) (diff.tdiv mag.divBy) mag.format := by
  have hn : n < 17 := by
    rcases Nat.lt_or_ge n 17 with h | h
    · exact h
    · rw [List.getElem?_eq_none (by simpa [magnitudes] using h)] at hm; cases hm
  unfold relTime
  simp only [← hd]
  rcases h2 with h2 | h2
  · by_cases hl : diff < 2 ^ 63 - 1
    · rw [search_magnitudes diff n (by omega) h1 ?_, if_neg (by show ¬ 17 ≤ n; omega), hm]
      intro i hi m hm'
      have : i < 17 := by
        rcases Nat.lt_or_ge i 17 with h | h
        · exact h
        · rw [List.getElem?_eq_none (by simpa [magnitudes] using h)] at hm'; cases hm'
      have : i = 16 := by omega
      subst this
      simp [magnitudes] at hm'
      rw [← hm']
      exact hl
    · rw [search_magnitudes diff 17 (by omega) ?_ ?_, if_pos (by show 17 ≤ 17; omega)]
      · have : n = 16 := by omega
        subst this
        rw [show magnitudes.length - 1 = 16 from rfl, hm]
      · intro i hi m hm'
        by_cases h16 : i < 16
        · exact h1 i (by omega) m hm'
        · have : i = 16 := by omega
          subst this
          simp [magnitudes] at hm'
          rw [← hm']
          simp only
          omega
      · intro i hi m hm'
        rw [List.getElem?_eq_none (by simpa [magnitudes] using hi)] at hm'; cases hm'
  · rw [search_magnitudes diff n (by omega) h1 h2, if_neg (by show ¬ 17 ≤ n; omega), hm]

theorem magnitudes_sorted : ∀ i < 17, ∀ j < 17, i ≤ j → (magnitudes.map (·.d))[i]! ≤ (magnitudes.map (·.d))[j]! := by decide

theorem magnitude_at {i : Nat} {m : Magnitude} (h : magnitudes[i]? = some m) : i < 17 ∧ (magnitudes.map (·.d))[i]! = m.d := by
  rcases Nat.lt_or_ge i 17 with h' | h'
  · refine ⟨h', ?_⟩
    rw [List.getElem!_eq_getElem?_getD, List.getElem?_map, h]
    rfl
  · rw [List.getElem?_eq_none (by simpa [magnitudes] using h')] at h; cases h

/-- The magnitude picked is the one between whose bounds the time is. -/
theorem relTime_between {a b : Int} (albl blbl : Str) {diff : Int} (hd : diff = if b < a then saturatedSub a b else saturatedSub b a) (k : Nat)
    {prev mag : Magnitude} (hp : magnitudes[k]? = some prev) (hm : magnitudes[k + 1]? = some mag) (h1 : prev.d ≤ diff) (h2 : k + 2 = 17 ∨ diff < mag.d) :
    relTime a b albl blbl = sprintfRel (if b < a then blbl else albl) (diff.tdiv mag.divBy) mag.format := by
  obtain ⟨p1, p2⟩ := magnitude_at hp
  obtain ⟨m1, m2⟩ := magnitude_at hm
  refine relTime_pick a b albl blbl diff hd (k + 1) mag hm ?_ ?_
  · intro i hi m hi'
    obtain ⟨i1, i2⟩ := magnitude_at hi'
    have := magnitudes_sorted i i1 k p1 (by omega)
    omega
  · refine h2.imp (fun h => by omega) ?_
    intro h i hi m hi'
    obtain ⟨i1, i2⟩ := magnitude_at hi'
    have := magnitudes_sorted (k + 1) m1 i i1 hi
    omega

theorem sprintfRel_plain (label : Str) (q : Int) (w rest : Str) (h : '%' ∉ w) : sprintfRel label q (w ++ rest) = w ++ sprintfRel label q rest := by
  induction w with
  | nil => rfl
  | cons c w ih =>
    have hc : c ≠ '%' := fun e => h (by simp [e])
    have hw : '%' ∉ w := fun e => h (by simp [e])
    rw [List.cons_append, List.cons_append, ← ih hw]
    exact sprintfRel.eq_4 label q c (w ++ rest) (fun _ e _ => hc e) (fun _ e _ => hc e)

theorem sprintfRel_label (label : Str) (q : Int) (w : Str) (h : '%' ∉ w) : sprintfRel label q (w ++ str " %s") = w ++ (str " " ++ label) := by
  rw [sprintfRel_plain _ _ _ _ h]
  simp [sprintfRel, str]

theorem sprintfRel_number (label : Str) (q : Int) (w : Str) (h : '%' ∉ w) :
    sprintfRel label q (str "%d" ++ (w ++ str " %s")) = natDigits q.toNat ++ w ++ (str " " ++ label) := by
  rw [show str "%d" ++ (w ++ str " %s") = '%' :: 'd' :: (w ++ str " %s") from rfl, sprintfRel, sprintfRel_label _ _ _ h]
  simp

theorem quotient_nat (n k : Nat) (d : Int) (hd : d = k) : ((n : Int).tdiv d).toNat = n / k := by
  subst hd
  rw [Int.tdiv_eq_ediv_of_nonneg (by omega), ← Int.natCast_ediv]
  rfl

theorem tells_of {gap q : Nat} (name : Str) (sec : Nat) (hu : (name, sec) ∈ timeUnits) (h1 : sec * 1000000000 ≤ gap)
    (h2 : ∀ v ∈ timeUnits.map (·.2), sec < v → gap < v * 1000000000) (hq : q = gap / (sec * 1000000000)) {text words label : Str}
    (hw : words = counted q name) (ht : text = words ++ label) : ∃ words, Tells gap words ∧ text = words ++ label := by
  refine ⟨words, ⟨(name, sec), hu, h1, ?_, by rw [hw, hq]⟩, ht⟩
  intro v hv hvg
  by_contra h
  have := h2 v.2 (List.mem_map_of_mem hv) (Nat.lt_of_not_le h)
  exact absurd hvg (Nat.not_le.2 this)

theorem relTime_cases (a b : Int) (albl blbl : Str) (gap : Nat) (diff : Int) (hd : diff = if b < a then saturatedSub a b else saturatedSub b a)
    (hg : diff = min (gap : Int) (2 ^ 63 - 1)) (label : Str) (hl : label = str " " ++ if b < a then blbl else albl) :
    if gap < 1000000000 then relTime a b albl blbl = str "now"
    else if 540 * 86400 * 1000000000 ≤ gap ∧ gap < 720 * 86400 * 1000000000 then relTime a b albl blbl = str "2 years" ++ label
    else if 37 * 360 * 86400 * 1000000000 ≤ gap then relTime a b albl blbl = str "a long while" ++ label
    else ∃ words, Tells gap words ∧ relTime a b albl blbl = words ++ label := by
  subst hl
  have between := fun k => @relTime_between a b albl blbl diff hd k
  have start := relTime_pick a b albl blbl diff hd 0 _ rfl (fun i hi => absurd hi (by omega))
  clear hd
  by_cases c0 : gap < 1000000000
  · rw [if_pos c0]
    exact start (Or.inr fun i _ m hi => by
      obtain ⟨i1, i2⟩ := magnitude_at hi
      have := magnitudes_sorted 0 (by omega) i i1 (by omega)
      have h0 : (magnitudes.map (·.d))[0]! = 1000000000 := by decide
      omega)
  rw [if_neg c0]
  by_cases cy : 540 * 86400 * 1000000000 ≤ gap ∧ gap < 720 * 86400 * 1000000000
  · rw [if_pos cy]
    refine (between 13 rfl rfl ?_ (Or.inr ?_)).trans (sprintfRel_label _ _ (str "2 years") (by decide))
    · show (18 * (30 * (24 * (60 * (60 * 1000000000)))) : Int) ≤ diff
      omega
    · show diff < (2 * (12 * (30 * (24 * (60 * (60 * 1000000000))))) : Int)
      omega
  rw [if_neg cy]
  by_cases cl : 37 * 360 * 86400 * 1000000000 ≤ gap
  · rw [if_pos cl]
    refine (between 15 rfl rfl ?_ (Or.inl rfl)).trans (sprintfRel_label _ _ (str "a long while") (by decide))
    show (37 * (12 * (30 * (24 * (60 * (60 * 1000000000))))) : Int) ≤ diff
    omega
  rw [if_neg cl]
  have hg : diff = gap := by omega
  have big : ∀ (n : Nat) (s : Str), n ≠ 1 → counted n s = natDigits n ++ str " " ++ s ++ str "s" := fun n s h => by simp [counted, h]
  by_cases c0a : gap < 2 * 1000000000
  · refine tells_of (q := 1) (str "second") 1 (by simp [timeUnits]) (by omega) ?_ (by omega) (words := str "1 second")
      (by decide) ((between 0 rfl rfl ?_ (Or.inr ?_)).trans (sprintfRel_label _ _ (str "1 second") (by decide)))
    · intro v hv h
      have : 60 ≤ v := (show ∀ v ∈ timeUnits.map (·.2), 1 < v → 60 ≤ v by decide) v hv h
      exact Nat.lt_of_lt_of_le (show gap < 60 * 1000000000 by omega) (Nat.mul_le_mul_right _ this)
    · show (1 * 1000000000 : Int) ≤ diff
      omega
    · show diff < (2 * 1000000000 : Int)
      omega
  by_cases c0b : gap < 60 * 1000000000
  · refine tells_of (q := gap / (1 * 1000000000)) (str "second") 1 (by simp [timeUnits]) (by omega) ?_ rfl
      (words := natDigits (gap / (1 * 1000000000)) ++ str " seconds") ?_ ((between 1 rfl rfl ?_ (Or.inr ?_)).trans ?_)
    · intro v hv h
      have : 60 ≤ v := (show ∀ v ∈ timeUnits.map (·.2), 1 < v → 60 ≤ v by decide) v hv h
      exact Nat.lt_of_lt_of_le (show gap < 60 * 1000000000 by omega) (Nat.mul_le_mul_right _ this)
    · rw [big _ _ (by omega)]
      simp [str]
    · show (2 * 1000000000 : Int) ≤ diff
      omega
    · show diff < (60 * 1000000000 : Int)
      omega
    · refine (sprintfRel_number _ _ (str " seconds") (by decide)).trans ?_
      rw [hg]
      exact congrArg (fun n => natDigits n ++ str " seconds" ++ _) (quotient_nat gap (1 * 1000000000) _ (by decide))
  by_cases c1a : gap < 120 * 1000000000
  · refine tells_of (q := 1) (str "minute") 60 (by simp [timeUnits]) (by omega) ?_ (by omega) (words := str "1 minute")
      (by decide) ((between 2 rfl rfl ?_ (Or.inr ?_)).trans (sprintfRel_label _ _ (str "1 minute") (by decide)))
    · intro v hv h
      have : 3600 ≤ v := (show ∀ v ∈ timeUnits.map (·.2), 60 < v → 3600 ≤ v by decide) v hv h
      exact Nat.lt_of_lt_of_le (show gap < 3600 * 1000000000 by omega) (Nat.mul_le_mul_right _ this)
    · show (60 * 1000000000 : Int) ≤ diff
      omega
    · show diff < (120 * 1000000000 : Int)
      omega
  by_cases c1b : gap < 3600 * 1000000000
  · refine tells_of (q := gap / (60 * 1000000000)) (str "minute") 60 (by simp [timeUnits]) (by omega) ?_ rfl
      (words := natDigits (gap / (60 * 1000000000)) ++ str " minutes") ?_ ((between 3 rfl rfl ?_ (Or.inr ?_)).trans ?_)
    · intro v hv h
      have : 3600 ≤ v := (show ∀ v ∈ timeUnits.map (·.2), 60 < v → 3600 ≤ v by decide) v hv h
      exact Nat.lt_of_lt_of_le (show gap < 3600 * 1000000000 by omega) (Nat.mul_le_mul_right _ this)
    · rw [big _ _ (by omega)]
      simp [str]
    · show (120 * 1000000000 : Int) ≤ diff
      omega
    · show diff < (3600 * 1000000000 : Int)
      omega
    · refine (sprintfRel_number _ _ (str " minutes") (by decide)).trans ?_
      rw [hg]
      exact congrArg (fun n => natDigits n ++ str " minutes" ++ _) (quotient_nat gap (60 * 1000000000) _ (by decide))
  by_cases c2a : gap < 7200 * 1000000000
  · refine tells_of (q := 1) (str "hour") 3600 (by simp [timeUnits]) (by omega) ?_ (by omega) (words := str "1 hour")
      (by decide) ((between 4 rfl rfl ?_ (Or.inr ?_)).trans (sprintfRel_label _ _ (str "1 hour") (by decide)))
    · intro v hv h
      have : 86400 ≤ v := (show ∀ v ∈ timeUnits.map (·.2), 3600 < v → 86400 ≤ v by decide) v hv h
      exact Nat.lt_of_lt_of_le (show gap < 86400 * 1000000000 by omega) (Nat.mul_le_mul_right _ this)
    · show (3600 * 1000000000 : Int) ≤ diff
      omega
    · show diff < (7200 * 1000000000 : Int)
      omega
  by_cases c2b : gap < 86400 * 1000000000
  · refine tells_of (q := gap / (3600 * 1000000000)) (str "hour") 3600 (by simp [timeUnits]) (by omega) ?_ rfl
      (words := natDigits (gap / (3600 * 1000000000)) ++ str " hours") ?_ ((between 5 rfl rfl ?_ (Or.inr ?_)).trans ?_)
    · intro v hv h
      have : 86400 ≤ v := (show ∀ v ∈ timeUnits.map (·.2), 3600 < v → 86400 ≤ v by decide) v hv h
      exact Nat.lt_of_lt_of_le (show gap < 86400 * 1000000000 by omega) (Nat.mul_le_mul_right _ this)
    · rw [big _ _ (by omega)]
      simp [str]
    · show (7200 * 1000000000 : Int) ≤ diff
      omega
    · show diff < (86400 * 1000000000 : Int)
      omega
    · refine (sprintfRel_number _ _ (str " hours") (by decide)).trans ?_
      rw [hg]
      exact congrArg (fun n => natDigits n ++ str " hours" ++ _) (quotient_nat gap (3600 * 1000000000) _ (by decide))
  by_cases c3a : gap < 172800 * 1000000000
  · refine tells_of (q := 1) (str "day") 86400 (by simp [timeUnits]) (by omega) ?_ (by omega) (words := str "1 day")
      (by decide) ((between 6 rfl rfl ?_ (Or.inr ?_)).trans (sprintfRel_label _ _ (str "1 day") (by decide)))
    · intro v hv h
      have : 604800 ≤ v := (show ∀ v ∈ timeUnits.map (·.2), 86400 < v → 604800 ≤ v by decide) v hv h
      exact Nat.lt_of_lt_of_le (show gap < 604800 * 1000000000 by omega) (Nat.mul_le_mul_right _ this)
    · show (86400 * 1000000000 : Int) ≤ diff
      omega
    · show diff < (172800 * 1000000000 : Int)
      omega
  by_cases c3b : gap < 604800 * 1000000000
  · refine tells_of (q := gap / (86400 * 1000000000)) (str "day") 86400 (by simp [timeUnits]) (by omega) ?_ rfl
      (words := natDigits (gap / (86400 * 1000000000)) ++ str " days") ?_ ((between 7 rfl rfl ?_ (Or.inr ?_)).trans ?_)
    · intro v hv h
      have : 604800 ≤ v := (show ∀ v ∈ timeUnits.map (·.2), 86400 < v → 604800 ≤ v by decide) v hv h
      exact Nat.lt_of_lt_of_le (show gap < 604800 * 1000000000 by omega) (Nat.mul_le_mul_right _ this)
    · rw [big _ _ (by omega)]
      simp [str]
    · show (172800 * 1000000000 : Int) ≤ diff
      omega
    · show diff < (604800 * 1000000000 : Int)
      omega
    · refine (sprintfRel_number _ _ (str " days") (by decide)).trans ?_
      rw [hg]
      exact congrArg (fun n => natDigits n ++ str " days" ++ _) (quotient_nat gap (86400 * 1000000000) _ (by decide))
  by_cases c4a : gap < 1209600 * 1000000000
  · refine tells_of (q := 1) (str "week") 604800 (by simp [timeUnits]) (by omega) ?_ (by omega) (words := str "1 week")
      (by decide) ((between 8 rfl rfl ?_ (Or.inr ?_)).trans (sprintfRel_label _ _ (str "1 week") (by decide)))
    · intro v hv h
      have : 2592000 ≤ v := (show ∀ v ∈ timeUnits.map (·.2), 604800 < v → 2592000 ≤ v by decide) v hv h
      exact Nat.lt_of_lt_of_le (show gap < 2592000 * 1000000000 by omega) (Nat.mul_le_mul_right _ this)
    · show (604800 * 1000000000 : Int) ≤ diff
      omega
    · show diff < (1209600 * 1000000000 : Int)
      omega
  by_cases c4b : gap < 2592000 * 1000000000
  · refine tells_of (q := gap / (604800 * 1000000000)) (str "week") 604800 (by simp [timeUnits]) (by omega) ?_ rfl
      (words := natDigits (gap / (604800 * 1000000000)) ++ str " weeks") ?_ ((between 9 rfl rfl ?_ (Or.inr ?_)).trans ?_)
    · intro v hv h
      have : 2592000 ≤ v := (show ∀ v ∈ timeUnits.map (·.2), 604800 < v → 2592000 ≤ v by decide) v hv h
      exact Nat.lt_of_lt_of_le (show gap < 2592000 * 1000000000 by omega) (Nat.mul_le_mul_right _ this)
    · rw [big _ _ (by omega)]
      simp [str]
    · show (1209600 * 1000000000 : Int) ≤ diff
      omega
    · show diff < (2592000 * 1000000000 : Int)
      omega
    · refine (sprintfRel_number _ _ (str " weeks") (by decide)).trans ?_
      rw [hg]
      exact congrArg (fun n => natDigits n ++ str " weeks" ++ _) (quotient_nat gap (604800 * 1000000000) _ (by decide))
  by_cases c5a : gap < 5184000 * 1000000000
  · refine tells_of (q := 1) (str "month") 2592000 (by simp [timeUnits]) (by omega) ?_ (by omega) (words := str "1 month")
      (by decide) ((between 10 rfl rfl ?_ (Or.inr ?_)).trans (sprintfRel_label _ _ (str "1 month") (by decide)))
    · intro v hv h
      have : 31104000 ≤ v := (show ∀ v ∈ timeUnits.map (·.2), 2592000 < v → 31104000 ≤ v by decide) v hv h
      exact Nat.lt_of_lt_of_le (show gap < 31104000 * 1000000000 by omega) (Nat.mul_le_mul_right _ this)
    · show (2592000 * 1000000000 : Int) ≤ diff
      omega
    · show diff < (5184000 * 1000000000 : Int)
      omega
  by_cases c5b : gap < 31104000 * 1000000000
  · refine tells_of (q := gap / (2592000 * 1000000000)) (str "month") 2592000 (by simp [timeUnits]) (by omega) ?_ rfl
      (words := natDigits (gap / (2592000 * 1000000000)) ++ str " months") ?_ ((between 11 rfl rfl ?_ (Or.inr ?_)).trans ?_)
    · intro v hv h
      have : 31104000 ≤ v := (show ∀ v ∈ timeUnits.map (·.2), 2592000 < v → 31104000 ≤ v by decide) v hv h
      exact Nat.lt_of_lt_of_le (show gap < 31104000 * 1000000000 by omega) (Nat.mul_le_mul_right _ this)
    · rw [big _ _ (by omega)]
      simp [str]
    · show (5184000 * 1000000000 : Int) ≤ diff
      omega
    · show diff < (31104000 * 1000000000 : Int)
      omega
    · refine (sprintfRel_number _ _ (str " months") (by decide)).trans ?_
      rw [hg]
      exact congrArg (fun n => natDigits n ++ str " months" ++ _) (quotient_nat gap (2592000 * 1000000000) _ (by decide))
  by_cases c6a : gap < 46656000 * 1000000000
  · refine tells_of (q := 1) (str "year") 31104000 (by simp [timeUnits]) (by omega) ?_ (by omega) (words := str "1 year")
      (by decide) ((between 12 rfl rfl ?_ (Or.inr ?_)).trans (sprintfRel_label _ _ (str "1 year") (by decide)))
    · intro v hv h
      exact absurd h ((show ∀ v ∈ timeUnits.map (·.2), ¬ 31104000 < v by decide) v hv)
    · show (31104000 * 1000000000 : Int) ≤ diff
      omega
    · show diff < (46656000 * 1000000000 : Int)
      omega
  by_cases c6b : gap < 1150848000 * 1000000000
  · refine tells_of (q := gap / (31104000 * 1000000000)) (str "year") 31104000 (by simp [timeUnits]) (by omega) ?_ rfl
      (words := natDigits (gap / (31104000 * 1000000000)) ++ str " years") ?_ ((between 14 rfl rfl ?_ (Or.inr ?_)).trans ?_)
    · intro v hv h
      exact absurd h ((show ∀ v ∈ timeUnits.map (·.2), ¬ 31104000 < v by decide) v hv)
    · rw [big _ _ (by omega)]
      simp [str]
    · show (62208000 * 1000000000 : Int) ≤ diff
      omega
    · show diff < (1150848000 * 1000000000 : Int)
      omega
    · refine (sprintfRel_number _ _ (str " years") (by decide)).trans ?_
      rw [hg]
      exact congrArg (fun n => natDigits n ++ str " years" ++ _) (quotient_nat gap (31104000 * 1000000000) _ (by decide))
  exact absurd cl (by omega)

/-- The whole of `humanize.Time`: `gap` is the time between the two instants. -/
theorem relTime_words (a b : Int) (albl blbl : Str) :
    let gap := (b - a).natAbs
    let text := relTime a b albl blbl
    let label := str " " ++ if b < a then blbl else albl
    if gap < 1000000000 then text = str "now"
    else if 540 * 86400 * 1000000000 ≤ gap ∧ gap < 720 * 86400 * 1000000000 then text = str "2 years" ++ label
    else if 37 * 360 * 86400 * 1000000000 ≤ gap then text = str "a long while" ++ label
    else ∃ words, Tells gap words ∧ text = words ++ label := by
  intro gap text label
  obtain ⟨diff, hd⟩ : ∃ diff : Int, diff = if b < a then saturatedSub a b else saturatedSub b a := ⟨_, rfl⟩
  have hg : diff = min (gap : Int) (2 ^ 63 - 1) := by
    rw [hd]
    unfold saturatedSub
    split <;> omega
  exact relTime_cases a b albl blbl gap diff hd hg label rfl

theorem humanize_words (now : Int) (d : Date) :
    let gap := now - d.instant
    let text := humanizeTime now d
    let label := if gap < 0 then str " from now" else str " ago"
    if 540 * 86400 * 1000000000 ≤ gap.natAbs ∧ gap.natAbs < 720 * 86400 * 1000000000 then text = str "2 years" ++ label
    else if 37 * 360 * 86400 * 1000000000 ≤ gap.natAbs then text = str "a long while" ++ label
    else TellsWhen gap text := by
  intro gap text label
  have h := relTime_words d.instant now (str "ago") (str "from now")
  have hl : (str " " ++ if now < d.instant then str "from now" else str "ago") = label := by
    show _ = if now - d.instant < 0 then str " from now" else str " ago"
    by_cases hlt : now < d.instant
    · rw [if_pos hlt, if_pos (by omega)]; rfl
    · rw [if_neg hlt, if_neg (by omega)]; rfl
  simp only [hl] at h
  change (if gap.natAbs < 1000000000 then text = str "now"
    else if 540 * 86400 * 1000000000 ≤ gap.natAbs ∧ gap.natAbs < 720 * 86400 * 1000000000 then text = str "2 years" ++ label
    else if 37 * 360 * 86400 * 1000000000 ≤ gap.natAbs then text = str "a long while" ++ label
    else ∃ words, Tells gap.natAbs words ∧ text = words ++ label) at h
  by_cases h0 : gap.natAbs < 1000000000
  · rw [if_pos h0] at h
    rw [if_neg (by omega), if_neg (by omega)]
    exact Or.inl ⟨h0, h⟩
  · rw [if_neg h0] at h
    by_cases h1 : 540 * 86400 * 1000000000 ≤ gap.natAbs ∧ gap.natAbs < 720 * 86400 * 1000000000
    · rw [if_pos h1] at h ⊢; exact h
    · rw [if_neg h1] at h ⊢
      by_cases h2 : 37 * 360 * 86400 * 1000000000 ≤ gap.natAbs
      · rw [if_pos h2] at h ⊢; exact h
      · rw [if_neg h2] at h ⊢
        exact Or.inr h

/-- **C126**: the words tell how long before (or after) now midnight UTC of the date is, in whole units; but from 18 months on they say two years, and
from 37 years on only that it is long. (Missing: those two ranges, in which the words are these instead.) -/
theorem C126_words_partial (now : Int) (d : Date) :
    let gap := now - d.instant
    (¬ (540 * 86400 * 1000000000 ≤ gap.natAbs ∧ gap.natAbs < 720 * 86400 * 1000000000) → gap.natAbs < 37 * 360 * 86400 * 1000000000 →
      TellsWhen gap (humanizeTime now d)) ∧
    (540 * 86400 * 1000000000 ≤ gap.natAbs → gap.natAbs < 720 * 86400 * 1000000000 →
      humanizeTime now d = str "2 years" ++ if gap < 0 then str " from now" else str " ago") ∧
    (37 * 360 * 86400 * 1000000000 ≤ gap.natAbs → humanizeTime now d = str "a long while" ++ if gap < 0 then str " from now" else str " ago") := by
  intro gap
  have h := humanize_words now d
  simp only at h
  refine ⟨fun h1 h2 => ?_, fun h1 h2 => ?_, fun h1 => ?_⟩
  · rw [if_neg h1, if_neg (by omega)] at h; exact h
  · rw [if_pos ⟨h1, h2⟩] at h; exact h
  · rw [if_neg (by omega), if_pos h1] at h; exact h

/-- Words that tell the same time are the same. -/
theorem tells_unique {ns : Nat} {w w' : Str} (h : Tells ns w) (h' : Tells ns w') : w = w' := by
  obtain ⟨u, hu, u1, u2, rfl⟩ := h
  obtain ⟨v, hv, v1, v2, rfl⟩ := h'
  have : u.2 = v.2 := le_antisymm (v2 u hu u1) (u2 v hv v1)
  have e : u = v := (show ∀ u ∈ timeUnits, ∀ v ∈ timeUnits, u.2 = v.2 → u = v by decide) u hu v hv this
  rw [e]

/-- In days: a transaction dated one to six days before today, as it is in Greenwich, was that many days ago. -/
theorem C126_days (now t : Int) (d : Date) (k : Nat) (hk : 1 ≤ k) (hk' : k < 7) (h0 : 0 ≤ t) (ht : t < nsPerDay)
    (hn : now = d.instant + k * nsPerDay + t) : humanizeTime now d = counted k (str "day") ++ str " ago" := by
  rw [show nsPerDay = 86400 * 1000000000 from rfl] at hn ht
  have h := (C126_words_partial now d).1 (by omega) (by omega)
  rcases h with ⟨h, _⟩ | ⟨w, hw, h⟩
  · omega
  · rw [h, if_neg (by omega)]
    congr 1
    refine tells_unique hw ⟨(str "day", 86400), by simp [timeUnits], by simp only; omega, ?_, ?_⟩
    · intro v hv hvg
      by_contra hlt
      have : 604800 ≤ v.2 := (show ∀ v ∈ timeUnits, ¬ v.2 ≤ 86400 → 604800 ≤ v.2 by decide) v hv hlt
      have := Nat.mul_le_mul_right 1000000000 this
      omega
    · simp only
      congr 1
      omega

/-- The words do not always tell the time: a date 18 months back is said to be two years back. -/
theorem C126_two_years_false : ¬ ∀ (now : Int) (d : Date), (now - d.instant).natAbs < 37 * 360 * 86400 * 1000000000 → TellsWhen (now - d.instant) (humanizeTime now d) := by
  intro h
  have hi : (⟨2020, 1, 1⟩ : Date).instant = 737424 * 86400 * 1000000000 := by decide
  have h1 := h (737964 * 86400 * 1000000000) ⟨2020, 1, 1⟩ (by rw [hi]; decide)
  have h2 := (C126_words_partial (737964 * 86400 * 1000000000) ⟨2020, 1, 1⟩).2.1 (by rw [hi]; decide) (by rw [hi]; decide)
  rw [hi] at h1 h2
  rcases h1 with ⟨h1, _⟩ | ⟨w, ⟨u, hu, u1, u2, rfl⟩, h1⟩
  · exact absurd h1 (by decide)
  · rw [h2] at h1
    have hy := u2 (str "year", 360 * 86400) (by simp [timeUnits]) (by decide)
    have e : u = (str "year", 360 * 86400) := (show ∀ u ∈ timeUnits, 31104000 ≤ u.2 → u = (str "year", 360 * 86400) by decide) u hu hy
    rw [e] at h1
    exact absurd h1 (by decide +kernel)

/-- And the day begins in Greenwich: east of it, where the clock is `east` nanoseconds ahead, a transaction of today is said to be in the future as long
as the day, of which the time `t` has passed, has not begun in Greenwich. -/
theorem C126_east_false (d : Date) (east t : Nat) (h : t + 1000000000 ≤ east) (he : east < 540 * 86400 * 1000000000) :
    ∃ words, Tells (east - t) words ∧ humanizeTime (d.instant - east + t) d = words ++ str " from now" := by
  have hg : d.instant - (east : Int) + t - d.instant = -((east - t : Nat) : Int) := by omega
  have h1 := (C126_words_partial (d.instant - east + t) d).1 (by omega) (by omega)
  rw [hg] at h1
  rcases h1 with ⟨h1, _⟩ | ⟨w, h1, h2⟩
  · omega
  · rw [Int.natAbs_neg, Int.natAbs_natCast] at h1
    rw [if_pos (by omega)] at h2
    exact ⟨w, h1, h2⟩

/-- What the statistics command says of the first and the last transaction: C72 with these words. -/
theorem C126_report_partial [Unicode] (now : Int) (e : Env) (ho : ∀ l, (e.mapOrder l).Perm l) (order : List Str → List Str) (hf : ∀ l, (order l).Perm l)
    (sortDates : List Date → List Date) (hs : SortsDates sortDates) (fs : FileSystem) (maxOpen : Nat) (bytes : List UInt8) (path text : Str)
    (h : statsCmd e (humanizeTime now) order sortDates fs maxOpen bytes path = .ok text) (hne : e.picked (delivered fs maxOpen bytes path) ≠ []) :
    ∃ f, FiguresOf e.filters (e.picked (delivered fs maxOpen bytes path)) f ∧ ∃ before after first last,
      text = before ++ str "\nFirst transaction:\t" ++ f.first.format ++ str " (" ++ first ++ str ")\nLast transaction:\t" ++ f.last.format ++ str " (" ++ last ++
        str ")\n" ++ after ∧
      ∀ x ∈ [(f.first, first), (f.last, last)],
        let gap := now - x.1.instant
        ¬ (540 * 86400 * 1000000000 ≤ gap.natAbs ∧ gap.natAbs < 720 * 86400 * 1000000000) → gap.natAbs < 37 * 360 * 86400 * 1000000000 →
        TellsWhen gap x.2 := by
  have S := C72_statistics_report e ho (humanizeTime now) order hf sortDates hs fs maxOpen bytes path text h
  simp only [if_neg hne] at S
  obtain ⟨f, hF, ht⟩ := S
  have join : ∀ (l : List Str), str "\n" ++ (l.map fun x => str "  " ++ x).flatMap (fun x => x ++ str "\n") =
      l.flatMap (fun x => str "\n  " ++ x) ++ str "\n" := by
    intro l
    induction l with
    | nil => rfl
    | cons x l ih =>
      simp only [List.map_cons, List.flatMap_cons, List.append_assoc] at ih ⊢
      rw [← ih]
      simp [str]
  refine ⟨f, hF, str "Transactions found in " ++ natDigits f.files.length ++ str " files:" ++ f.files.flatMap (fun x => str "\n  " ++ x),
    ((f.lines (humanizeTime now)).drop (f.files.length + 3)).flatMap (· ++ str "\n"),
    humanizeTime now f.first, humanizeTime now f.last, ?_, ?_⟩
  rotate_left
  · intro x hx gap h1 h2
    simp only [List.mem_cons, List.not_mem_nil, or_false] at hx
    rcases hx with rfl | rfl <;> exact (C126_words_partial now _).1 h1 h2
  · have hdrop : (f.lines (humanizeTime now)).drop (f.files.length + 3) =
        [str "Time period:\t\t" ++ natDigits f.days ++ str " days",
         str "Transactions:\t\t" ++ natDigits f.count ++ str " (" ++ f.rate ++ str " per day)",
         str "Unique accounts:\t" ++ natDigits f.accounts,
         str "Unique payees:\t\t" ++ natDigits f.payees,
         str "Age of money:\t\t" ++ natDigits f.age ++ str " days"] := by
      unfold Figures.lines
      rw [List.drop_append, List.drop_of_length_le (by simp)]
      simp only [List.length_append, List.length_map, List.length_cons, List.length_nil]
      rw [show f.files.length + 3 - (0 + 1 + f.files.length) = 2 by omega]
      rfl
    rw [ht, hdrop]
    unfold Figures.lines ago
    have j := join f.files
    simp only [List.flatMap_append, List.flatMap_cons, List.flatMap_nil, List.append_nil]
    have e1 : ∀ r : Str, str "\n" ++ ((f.files.map fun x => str "  " ++ x).flatMap (fun x => x ++ str "\n") ++ r) =
        f.files.flatMap (fun x => str "\n  " ++ x) ++ (str "\n" ++ r) := by
      intro r
      rw [← List.append_assoc, j, List.append_assoc]
    simp only [List.append_assoc]
    rw [e1]
    simp [str]

/-- Noon, Greenwich, of 1 June 2021. -/
def aNoon : Int := (⟨2021, 6, 1⟩ : Date).instant + 12 * 3600 * 1000000000

example :
    humanizeTime aNoon ⟨2021, 6, 1⟩ = str "12 hours ago" ∧ humanizeTime aNoon ⟨2021, 5, 31⟩ = str "1 day ago" ∧
    humanizeTime aNoon ⟨2021, 5, 28⟩ = str "4 days ago" ∧ humanizeTime aNoon ⟨2021, 5, 5⟩ = str "3 weeks ago" ∧
    humanizeTime aNoon ⟨2021, 6, 10⟩ = str "1 week from now" ∧ humanizeTime aNoon ⟨2020, 7, 1⟩ = str "11 months ago" ∧
    humanizeTime aNoon ⟨2020, 1, 1⟩ = str "1 year ago" ∧ humanizeTime aNoon ⟨2019, 12, 1⟩ = str "2 years ago" ∧
    humanizeTime aNoon ⟨1989, 1, 1⟩ = str "32 years ago" ∧ humanizeTime aNoon ⟨1600, 1, 1⟩ = str "a long while ago" := by decide +kernel

example : aNoon = (⟨2021, 5, 28⟩ : Date).instant + (4 : Nat) * nsPerDay + 12 * 3600 * 1000000000 := by decide +kernel

/-- Eight o'clock in the morning in Sydney. -/
example : (8 * 3600 * 1000000000 + 1000000000 : Nat) ≤ 10 * 3600 * 1000000000 ∧
    humanizeTime ((⟨2021, 6, 1⟩ : Date).instant - (10 * 3600 * 1000000000 : Nat) + (8 * 3600 * 1000000000 : Nat)) ⟨2021, 6, 1⟩ = str "2 hours from now" := by
  decide +kernel

set_option maxRecDepth 100000 in
example :
    letI := asciiUnicode
    let j := utf8 "2021-05-05 x\n  A  10\n  B\n\n2021-05-28 y\n  A  2\n  B\n"
    (statsCmd {} (humanizeTime aNoon) id (List.insertionSort fun a b => a.dayNumber ≤ b.dayNumber) noFiles 1 j (str "f")).toOption =
      some (str "Transactions found in 1 files:\n  f\nFirst transaction:\t2021-05-05 (3 weeks ago)\nLast transaction:\t2021-05-28 (4 days ago)\nTime period:\t\t23 days\nTransactions:\t\t2 (0.1 per day)\nUnique accounts:\t2\nUnique payees:\t\t2\nAge of money:\t\t0 days\n") := by
  decide +kernel

end Gledger
