/-
C128: balance reports that look alike show the same accounts with the same amounts.
-/
import Verif.Lemmas.Alike
import Verif.Props.OneLine
import Verif.Props.Warnings
import Verif.Props.Amounts
import Verif.Props.Whole

set_option maxRecDepth 100000

namespace Gledger

/-! ### Lines -/

theorem joinLines_cons {c : Str} {cs : List Str} (h : cs ≠ []) : joinLines (c :: cs) = c ++ '\n' :: joinLines cs := by
  cases cs with
  | nil => exact absurd rfl h
  | cons d ds => simp [joinLines, List.intercalate]

theorem joinLines_append {a b : List Str} (ha : a ≠ []) (hb : b ≠ []) : joinLines (a ++ b) = joinLines a ++ '\n' :: joinLines b := by
  induction a with
  | nil => exact absurd rfl ha
  | cons x a ih =>
    cases a with
    | nil => rw [List.singleton_append, joinLines_cons hb]; simp [joinLines, List.intercalate]
    | cons y a => rw [List.cons_append, joinLines_cons (by simp), ih (by simp), joinLines_cons (c := x) (cs := y :: a) (by simp), List.append_assoc, List.cons_append]

theorem joinLines_warnings (W : List Str) {R : List Str} (h : R ≠ []) : (W.map (· ++ ['\n'])).flatten ++ joinLines R = joinLines (W ++ R) := by
  induction W with
  | nil => rfl
  | cons w W ih => rw [List.map_cons, List.flatten_cons, List.cons_append, joinLines_cons (by simp [h]), ← ih]; simp

/-- The lines of a report; none, and there is an empty one. -/
def reportLines (ls : List Str) (a : Amount) : List Str :=
  (if ls = [] then [[]] else ls) ++ [str "--------------------", rightAligned 20 (displayQuantity a.quantity), []]

theorem reportLines_ne (ls : List Str) (a : Amount) : reportLines ls a ≠ [] := by unfold reportLines; simp

theorem reportLines_eq (ls : List Str) (a : Amount) : joinLines ls ++ footer a = joinLines (reportLines ls a) := by
  unfold reportLines
  rw [joinLines_append (by split <;> simp_all) (by simp)]
  have e : joinLines (if ls = [] then [[]] else ls) = joinLines ls := by
    split
    · rename_i h; subst h; rfl
    · rfl
  rw [e]
  congr 1

/-- What warnings begin with. -/
def warned : Str := str "unhandled a"

theorem displayQuantity_oneLine (q : I64) : '\n' ∉ displayQuantity q := by
  intro h
  rcases displayQuantity_chars q _ h with h | h | h
  · revert h; decide
  · revert h; decide
  · revert h; decide

theorem displayQuantity_ink (q : I64) : (displayQuantity q).head? ≠ some ' ' := by
  obtain ⟨c, s, e, h⟩ := displayQuantity_head q
  rw [e]
  intro hc
  rw [List.head?_cons, Option.some.injEq] at hc
  subst hc
  revert h
  decide

theorem rightAligned_oneLine {w : Nat} {s : Str} (h : '\n' ∉ s) : '\n' ∉ rightAligned w s := by
  unfold rightAligned
  rw [List.mem_append, not_or]
  exact ⟨fun hc => absurd (List.eq_of_mem_replicate hc) (by decide), h⟩

theorem split_at {p : Str → Prop} {W W' R R' : List Str} (hW : ∀ w ∈ W, p w) (hW' : ∀ w ∈ W', p w) (hR : ∀ r ∈ R, ¬ p r) (hR' : ∀ r ∈ R', ¬ p r)
    (h : W ++ R = W' ++ R') : W = W' ∧ R = R' := by
  induction W generalizing W' with
  | nil =>
    cases W' with
    | nil => exact ⟨rfl, h⟩
    | cons w' W' =>
      rw [List.nil_append] at h
      exact absurd (hW' w' (by simp)) (hR w' (by rw [h]; simp))
  | cons w W ih =>
    cases W' with
    | nil =>
      rw [List.nil_append] at h
      exact absurd (hW w (by simp)) (hR' w (by rw [← h]; simp))
    | cons w' W' =>
      rw [List.cons_append, List.cons_append, List.cons.injEq] at h
      obtain ⟨rfl, h⟩ := h
      obtain ⟨h1, h2⟩ := ih (fun w hw => hW w (by simp [hw])) (fun w hw => hW' w (by simp [hw])) h
      exact ⟨by rw [h1], h2⟩

theorem prefix_before {p c s : Str} {x : Char} (hx : x ∉ p) (h : p <+: c ++ x :: s) : p <+: c := by
  rcases List.prefix_or_prefix_of_prefix h (List.prefix_append c (x :: s)) with h1 | ⟨t, rfl⟩
  · exact h1
  · cases t with
    | nil => simp
    | cons y t =>
      obtain ⟨r, hr⟩ := h
      rw [List.append_assoc] at hr
      have := List.append_cancel_left hr
      rw [List.cons_append, List.cons.injEq] at this
      exact absurd (by simp [this.1]) hx

theorem aligned_not_warned {c : Str} (hc : LegibleCommodity c) (q : I64) (rest : Str) : ¬ warned <+: rightAligned 20 (c ++ displayQuantity q) ++ rest := by
  intro h
  unfold rightAligned at h
  cases hk : 20 - (c ++ displayQuantity q).length with
  | succ k =>
    rw [hk, List.replicate_succ] at h
    obtain ⟨t, ht⟩ := h
    have hu : (warned ++ t).head? = some 'u' := rfl
    rw [ht, List.cons_append, List.cons_append, List.head?_cons, Option.some.injEq] at hu
    exact absurd hu (by decide)
  | zero =>
    rw [hk, List.replicate_zero, List.nil_append] at h
    obtain ⟨x, s, e, hx⟩ := displayQuantity_head q
    rw [e, List.append_assoc, List.cons_append] at h
    have hn : x ∉ warned := by
      intro hm
      have : ∀ y ∈ warned, isDigit y = false ∧ y ≠ '-' := by decide
      have := this x hm
      rcases hx with hx | hx
      · rw [this.1] at hx; cases hx
      · exact this.2 hx
    obtain ⟨t, ht⟩ := prefix_before hn h
    apply hc.2.1
    rw [← ht, show warned = str "unhandled " ++ ['a'] from rfl, List.append_assoc, List.dropLast_append_of_ne_nil (by simp)]
    simp [str]

theorem rule_fine : '\n' ∉ str "--------------------" ∧ ¬ warned <+: str "--------------------" := by decide

theorem empty_fine : '\n' ∉ ([] : Str) ∧ ¬ warned <+: [] := by decide

theorem legible_nil : LegibleCommodity [] := by unfold LegibleCommodity; decide

theorem reportLines_fine {ls : List Str} {a : Amount} (hl : ∀ l ∈ ls, '\n' ∉ l ∧ ¬ warned <+: l ∧ l ≠ []) : ∀ l ∈ reportLines ls a, '\n' ∉ l ∧ ¬ warned <+: l := by
  intro l hm
  unfold reportLines at hm
  rw [List.mem_append] at hm
  rcases hm with hm | hm
  · split at hm
    · rw [List.mem_singleton] at hm; subst hm; exact empty_fine
    · exact ⟨(hl l hm).1, (hl l hm).2.1⟩
  · rw [List.mem_cons, List.mem_cons, List.mem_singleton] at hm
    rcases hm with hm | hm | hm
    · rw [hm]; exact rule_fine
    · rw [hm]
      refine ⟨rightAligned_oneLine (displayQuantity_oneLine _), ?_⟩
      have := aligned_not_warned (c := []) legible_nil a.quantity []
      rwa [List.nil_append, List.append_nil] at this
    · rw [hm]; exact empty_fine

theorem reportLines_inj {ls ls' : List Str} {a a' : Amount} (hl : [] ∉ ls) (hl' : [] ∉ ls') (h : reportLines ls a = reportLines ls' a') :
    ls = ls' ∧ rightAligned 20 (displayQuantity a.quantity) = rightAligned 20 (displayQuantity a'.quantity) := by
  unfold reportLines at h
  generalize str "--------------------" = rule at h
  generalize rightAligned 20 (displayQuantity a.quantity) = x at h ⊢
  generalize rightAligned 20 (displayQuantity a'.quantity) = y at h ⊢
  obtain ⟨h3, h4⟩ := List.append_inj' h (by simp)
  refine ⟨?_, by simpa using h4⟩
  split at h3
  · rename_i h1
    split at h3
    · rename_i h2; rw [h1, h2]
    · exact absurd (by rw [← h3]; simp) hl'
  · split at h3
    · exact absurd (by rw [h3]; simp) hl
    · exact h3

theorem report_parts {W W' ls ls' : List Str} {a a' : Amount} (hW : ∀ w ∈ W, '\n' ∉ w ∧ warned <+: w) (hW' : ∀ w ∈ W', '\n' ∉ w ∧ warned <+: w)
    (hl : ∀ l ∈ ls, '\n' ∉ l ∧ ¬ warned <+: l ∧ l ≠ []) (hl' : ∀ l ∈ ls', '\n' ∉ l ∧ ¬ warned <+: l ∧ l ≠ [])
    (h : (W.map (· ++ ['\n'])).flatten ++ (joinLines ls ++ footer a) = (W'.map (· ++ ['\n'])).flatten ++ (joinLines ls' ++ footer a')) :
    W = W' ∧ ls = ls' ∧ displayQuantity a.quantity = displayQuantity a'.quantity := by
  rw [reportLines_eq, reportLines_eq, joinLines_warnings _ (reportLines_ne _ _), joinLines_warnings _ (reportLines_ne _ _)] at h
  have h := joinLines_inj (by
      intro l hm
      rcases List.mem_append.1 hm with hm | hm
      · exact (hW l hm).1
      · exact (reportLines_fine hl l hm).1) (by
      intro l hm
      rcases List.mem_append.1 hm with hm | hm
      · exact (hW' l hm).1
      · exact (reportLines_fine hl' l hm).1) (by simp [reportLines_ne]) (by simp [reportLines_ne]) h
  obtain ⟨h1, h2⟩ := split_at (fun w hw => (hW w hw).2) (fun w hw => (hW' w hw).2) (fun l hm => (reportLines_fine hl l hm).2) (fun l hm => (reportLines_fine hl' l hm).2) h
  obtain ⟨h3, h4⟩ := reportLines_inj (fun hm => (hl [] hm).2.2 rfl) (fun hm => (hl' [] hm).2.2 rfl) h2
  exact ⟨h1, h3, rightAligned_inj (displayQuantity_ink _) (displayQuantity_ink _) h4⟩

theorem display_ink {a : Amount} (h : LegibleCommodity a.commodity) : (a.display true).head? ≠ some ' ' := by
  unfold Amount.display
  rw [if_pos rfl]
  cases hc : a.commodity with
  | nil => exact displayQuantity_ink _
  | cons x xs =>
    rw [hc] at h
    obtain ⟨_, h2, h3, _⟩ := h
    intro e
    rw [List.cons_append, List.head?_cons, Option.some.injEq] at e
    subst e
    cases xs with
    | nil => exact h3 rfl
    | cons y ys => exact h2 (by simp)

/-- A line tells the commodity, the number, the indentation and the name on it. -/
theorem line_inj {a b : Amount} {k l : Nat} {n m : Str} (ha : LegibleCommodity a.commodity) (hb : LegibleCommodity b.commodity)
    (hn : ¬ [' ', ' '] <:+: n) (hm : ¬ [' ', ' '] <:+: m)
    (h : amountColumn a ++ List.replicate (2 * k) ' ' ++ n = amountColumn b ++ List.replicate (2 * l) ' ' ++ m) : a.LooksLike b ∧ k = l ∧ n = m := by
  have e : ∀ (a : Amount) (k : Nat) (n : Str), amountColumn a ++ List.replicate (2 * k) ' ' ++ n =
      rightAligned 20 (a.display true) ++ (List.replicate (2 * k + 2) ' ' ++ n) := by
    intro a k n
    unfold amountColumn
    rw [List.append_assoc, List.append_assoc, Nat.add_comm, List.replicate_add, List.append_assoc]
    rfl
  have last : ∀ a : Amount, ∃ c, (rightAligned 20 (a.display true)).getLast? = some c ∧ c ≠ ' ' := by
    intro a
    obtain ⟨c, h1, h2⟩ := displayQuantity_last a.quantity
    exact ⟨c, by simp [rightAligned, Amount.display, List.getLast?_append, h1], h2⟩
  rw [e, e] at h
  obtain ⟨h1, h2, h3⟩ := cut_inj (by omega) (last a) (last b) hn hm h
  have h4 := rightAligned_inj (display_ink ha) (display_ink hb) h1
  unfold Amount.display at h4
  rw [if_pos rfl, if_pos rfl] at h4
  exact ⟨commodity_split ha.2.2.2 hb.2.2.2 h4, by omega, h3⟩

theorem map_decode {α β γ δ : Type} {f : α → γ} {f' : β → γ} {g : α → δ} {g' : β → δ} {L : List α} {L' : List β} (h : L.map f = L'.map f')
    (hg : ∀ a ∈ L, ∀ b ∈ L', f a = f' b → g a = g' b) : L.map g = L'.map g' := by
  induction L generalizing L' with
  | nil =>
    cases L' with
    | nil => rfl
    | cons _ _ => cases h
  | cons a L ih =>
    cases L' with
    | nil => cases h
    | cons b L' =>
      rw [List.map_cons, List.map_cons, List.cons.injEq] at h
      rw [List.map_cons, List.map_cons, hg a (by simp) b (by simp) h.1, ih h.2 fun x hx y hy => hg x (by simp [hx]) y (by simp [hy])]

/-! ### Postings -/

theorem firstCommodity_legible {ps : List Posting} (h : ∀ p ∈ ps, p.Legible) (cs : List Str) : LegibleCommodity (firstCommodity (below cs ps)) := by
  unfold firstCommodity
  cases hw : writtenCommodities (below cs ps) with
  | nil => unfold LegibleCommodity; decide
  | cons c l =>
    have hm : c ∈ writtenCommodities (below cs ps) := by rw [hw]; simp
    unfold writtenCommodities at hm
    simp only [List.mem_filter, List.mem_filterMap, Option.map_eq_some_iff] at hm
    obtain ⟨⟨p, hp, a, ha, rfl⟩, _⟩ := hm
    exact (h p (List.mem_filter.1 hp).1).2.2 a ha

theorem names_legible {ps : List Posting} (h : ∀ p ∈ ps, p.Legible) {cs ds : List Str} (hc : cs = [] ∨ ∃ p ∈ ps, cs <+: p.components) (hd : ds <:+: cs) :
    '\n' ∉ joinPath ds ∧ ¬ [' ', ' '] <:+: joinPath ds ∧ ∀ c ∈ ds, ':' ∉ c := by
  rcases hc with rfl | ⟨p, hp, hc⟩
  · rw [List.infix_nil.1 hd]; decide
  · have hi : joinPath ds <:+: p.accountPath := by
      have := joinPath_infix (hd.trans hc.isInfix)
      unfold Posting.components at this
      rwa [joinPath_split] at this
    refine ⟨fun hm => (h p hp).1 (hi.subset hm), fun hm => (h p hp).2.1 (hm.trans hi), fun c hm => ?_⟩
    exact split_parts ':' p.accountPath c ((hd.trans hc.isInfix).subset hm)

theorem joinPath_inj {cs ds : List Str} (hc : ∀ c ∈ cs, ':' ∉ c) (hd : ∀ c ∈ ds, ':' ∉ c) (h1 : cs ≠ [[]]) (h2 : ds ≠ [[]]) (h : joinPath cs = joinPath ds) : cs = ds := by
  by_cases e1 : cs = []
  · subst e1
    by_contra hne
    have := split_joinPath ds (Ne.symm hne) hd
    rw [← h] at this
    exact h2 (by rw [← this]; rfl)
  · by_cases e2 : ds = []
    · subst e2
      have := split_joinPath cs e1 hc
      rw [h] at this
      exact absurd (by rw [← this]; rfl) h1
    · rw [← split_joinPath cs e1 hc, h, split_joinPath ds e2 hd]

theorem joinPath_inj_ne {cs ds : List Str} (hc : ∀ c ∈ cs, ':' ∉ c) (hd : ∀ c ∈ ds, ':' ∉ c) (h1 : cs ≠ []) (h2 : ds ≠ []) (h : joinPath cs = joinPath ds) : cs = ds := by
  rw [← split_joinPath cs h1 hc, h, split_joinPath ds h2 hd]

/-! ### Reports -/

/-- What the lines of a report are made of. -/
structure Ruled (sz : Bool) (ps : List Posting) (text : Str) (L : List (List Str)) (level : List Str → Nat) (name : List Str → Str) : Prop where
  sorted : L.Pairwise PathLt
  shown : ∀ cs ∈ L, Shown sz ps cs
  text_eq : text = joinLines (L.map fun cs => amountColumn (tally (below cs ps)) ++ List.replicate (2 * level cs) ' ' ++ name cs) ++ footer (tally ps)
  name : ∀ cs ∈ L, '\n' ∉ name cs ∧ ¬ [' ', ' '] <:+: name cs

theorem Ruled.fine {sz : Bool} {ps : List Posting} {text : Str} {L : List (List Str)} {level : List Str → Nat} {name : List Str → Str}
    (r : Ruled sz ps text L level name) (h : ∀ p ∈ ps, p.Legible) :
    ∀ l ∈ L.map (fun cs => amountColumn (tally (below cs ps)) ++ List.replicate (2 * level cs) ' ' ++ name cs), '\n' ∉ l ∧ ¬ warned <+: l ∧ l ≠ [] := by
  intro l hm
  obtain ⟨cs, hc, rfl⟩ := List.mem_map.1 hm
  have hl := firstCommodity_legible h cs
  have hd : '\n' ∉ (tally (below cs ps)).display true := by
    unfold Amount.display
    rw [if_pos rfl, List.mem_append, not_or]
    exact ⟨hl.1, displayQuantity_oneLine _⟩
  refine ⟨?_, ?_, ?_⟩
  · unfold amountColumn
    simp only [List.mem_append, not_or]
    exact ⟨⟨⟨rightAligned_oneLine hd, by decide⟩, fun hc => absurd (List.eq_of_mem_replicate hc) (by decide)⟩, (r.name cs hc).1⟩
  · unfold amountColumn
    rw [List.append_assoc, List.append_assoc]
    exact aligned_not_warned hl _ _
  · unfold amountColumn
    simp [str]

theorem ruled_same {sz sz' : Bool} {ps ps' : List Posting} {text text' : Str} {L L' : List (List Str)} {level level' : List Str → Nat} {name name' : List Str → Str}
    (r : Ruled sz ps text L level name) (r' : Ruled sz' ps' text' L' level' name') (h : ∀ p ∈ ps, p.Legible) (h' : ∀ p ∈ ps', p.Legible)
    {W W' : List Str} (hW : ∀ w ∈ W, '\n' ∉ w ∧ warned <+: w) (hW' : ∀ w ∈ W', '\n' ∉ w ∧ warned <+: w)
    (ht : (W.map (· ++ ['\n'])).flatten ++ text = (W'.map (· ++ ['\n'])).flatten ++ text') :
    W = W' ∧ L.map (fun cs => (level cs, name cs)) = L'.map (fun cs => (level' cs, name' cs)) ∧
    L.map (fun cs => (firstCommodity (below cs ps), displayQuantity (tally (below cs ps)).quantity)) =
      L'.map (fun cs => (firstCommodity (below cs ps'), displayQuantity (tally (below cs ps')).quantity)) ∧
    displayQuantity (tally ps).quantity = displayQuantity (tally ps').quantity := by
  rw [r.text_eq, r'.text_eq] at ht
  obtain ⟨h1, h2, h3⟩ := report_parts hW hW' (r.fine h) (r'.fine h') ht
  refine ⟨h1, map_decode h2 fun a ha b hb e => ?_, map_decode h2 fun a ha b hb e => ?_, h3⟩
  · obtain ⟨_, e1, e2⟩ := line_inj (firstCommodity_legible h a) (firstCommodity_legible h' b) (r.name a ha).2 (r'.name b hb).2 e
    rw [e1, e2]
  · obtain ⟨e1, _⟩ := line_inj (firstCommodity_legible h a) (firstCommodity_legible h' b) (r.name a ha).2 (r'.name b hb).2 e
    exact Prod.ext e1.1 e1.2

theorem shown_above {sz : Bool} {ps : List Posting} : ∀ cs ds, Shown sz ps cs → ds <+: cs → Shown sz ps ds := fun _ _ h hd => h.up hd

/-- Reports of one form that look alike, after warnings, are about the same accounts. -/
theorem reports_same {fl co sz sz' : Bool} {ps ps' : List Posting} {text text' : Str} (hr : BalanceReport sz fl co ps text) (hr' : BalanceReport sz' fl co ps' text')
    (h : ∀ p ∈ ps, p.Legible) (h' : ∀ p ∈ ps', p.Legible)
    (hf : fl = true → ∀ p ∈ ps ++ ps', p.components.head? ≠ some [] ∧ ∀ c ∈ p.components.dropLast, ¬ Reserved c)
    {W W' : List Str} (hW : ∀ w ∈ W, '\n' ∉ w ∧ warned <+: w) (hW' : ∀ w ∈ W', '\n' ∉ w ∧ warned <+: w)
    (ht : (W.map (· ++ ['\n'])).flatten ++ text = (W'.map (· ++ ['\n'])).flatten ++ text') :
    W = W' ∧ (∃ L : List (List Str), (∀ cs, cs ∈ L ↔ Shown sz ps cs ∧ OwnLine fl co (Shown sz ps) cs) ∧
      (∀ cs, cs ∈ L ↔ Shown sz' ps' cs ∧ OwnLine fl co (Shown sz' ps') cs) ∧
      ∀ cs ∈ L, (tally (below cs ps)).LooksLike (tally (below cs ps'))) ∧
    displayQuantity (tally ps).quantity = displayQuantity (tally ps').quantity := by
  have finish : ∀ {L L' : List (List Str)}, L = L' →
      L.map (fun cs => (firstCommodity (below cs ps), displayQuantity (tally (below cs ps)).quantity)) =
        L'.map (fun cs => (firstCommodity (below cs ps'), displayQuantity (tally (below cs ps')).quantity)) →
      ∀ cs ∈ L, (tally (below cs ps)).LooksLike (tally (below cs ps')) := by
    rintro L _ rfl e cs hc
    have := List.map_inj_left.1 e cs hc
    exact ⟨congrArg Prod.fst this, congrArg Prod.snd this⟩
  unfold BalanceReport at hr hr'
  by_cases hfl : fl = true
  · rw [if_pos hfl] at hr hr'
    obtain ⟨L, s1, m1, t1⟩ := hr
    obtain ⟨L', s2, m2, t2⟩ := hr'
    have free : ∀ {sz : Bool} {qs : List Posting} {cs : List Str}, (∀ p ∈ qs, p ∈ ps ++ ps') → Shown sz qs cs → spelledNames cs = cs ∧ cs ≠ [[]] := by
      intro sz qs cs hq hs
      rcases hs.1 with rfl | ⟨p, hp, hc⟩
      · exact ⟨rfl, by simp⟩
      · obtain ⟨f1, f2⟩ := hf hfl p (hq p hp)
        constructor
        · apply spelledNames_free
          intro c hm
          apply f2 c
          obtain ⟨t, ht⟩ := hc
          rw [← ht]
          by_cases htn : t = []
          · subst htn; simpa using hm
          · rw [List.dropLast_append_of_ne_nil htn]
            exact List.mem_append_left _ (List.dropLast_subset _ hm)
        · rintro rfl
          obtain ⟨t, ht⟩ := hc
          rw [← ht] at f1
          exact f1 rfl
    have ruled : ∀ {sz : Bool} {qs : List Posting} {text : Str} {L : List (List Str)}, (∀ p ∈ qs, p ∈ ps ++ ps') → (∀ p ∈ qs, p.Legible) → L.Pairwise PathLt →
        (∀ cs, cs ∈ L ↔ Shown sz qs cs ∧ ∀ c, ¬ Shown sz qs (cs ++ [c])) →
        text = joinLines (L.map fun cs => amountColumn (tally (below cs qs)) ++ joinPath (spelledNames cs)) ++ footer (tally qs) →
        Ruled sz qs text L (fun _ => 0) joinPath := by
      intro sz qs text L hq hl s m t
      refine ⟨s, fun cs hc => ((m cs).1 hc).1, ?_, fun cs hc => ?_⟩
      · rw [t]
        congr 2
        apply List.map_congr_left
        intro cs hc
        rw [(free hq ((m cs).1 hc).1).1]
        simp
      · obtain ⟨n1, n2, _⟩ := names_legible hl ((m cs).1 hc).1.1 List.infix_rfl
        exact ⟨n1, n2⟩
    have q1 : ∀ p ∈ ps, p ∈ ps ++ ps' := fun p hp => by simp [hp]
    have q2 : ∀ p ∈ ps', p ∈ ps ++ ps' := fun p hp => by simp [hp]
    obtain ⟨e1, e2, e3, e4⟩ := ruled_same (ruled q1 h s1 m1 t1) (ruled q2 h' s2 m2 t2) h h' hW hW' ht
    have eL : L = L' := by
      have := map_decode (g := id) (g' := id) e2 fun a ha b hb e => by
        have e := congrArg Prod.snd e
        obtain ⟨_, _, n1⟩ := names_legible h ((m1 a).1 ha).1.1 List.infix_rfl
        obtain ⟨_, _, n2⟩ := names_legible h' ((m2 b).1 hb).1.1 List.infix_rfl
        exact joinPath_inj n1 n2 (free q1 ((m1 a).1 ha).1).2 (free q2 ((m2 b).1 hb).1).2 e
      simpa using this
    refine ⟨e1, ⟨L, ?_, ?_, finish eL e3⟩, e4⟩
    · simpa only [OwnLine, if_pos hfl] using m1
    · rw [eL]; simpa only [OwnLine, if_pos hfl] using m2
  rw [if_neg hfl] at hr hr'
  by_cases hco : co = true
  · rw [if_pos hco] at hr hr'
    obtain ⟨L, one, s1, o1, m1, t1⟩ := hr
    obtain ⟨L', one', s2, o2, m2, t2⟩ := hr'
    have chain : ∀ {sz : Bool} {qs : List Posting} {one : List Str → Bool} {cs : List Str}, (∀ p ∈ qs, p.Legible) → Shown sz qs cs → cs ≠ [] →
        '\n' ∉ joinPath (chainBy one cs) ∧ ¬ [' ', ' '] <:+: joinPath (chainBy one cs) ∧ (∀ c ∈ chainBy one cs, ':' ∉ c) ∧ chainBy one cs ≠ [] := by
      intro sz qs one cs hl hs hne
      obtain ⟨n1, n2, n3⟩ := names_legible hl hs.1 (List.drop_suffix ((stopsBy one cs).getLastD 0) cs).isInfix
      refine ⟨n1, n2, n3, ?_⟩
      obtain ⟨s, e, h1, _⟩ := stops_last one hne
      unfold chainBy
      rw [e, ← List.length_pos_iff, List.length_drop]
      omega
    have ruled : ∀ {sz : Bool} {qs : List Posting} {text : Str} {L : List (List Str)} {one : List Str → Bool}, (∀ p ∈ qs, p.Legible) → L.Pairwise PathLt →
        (∀ cs, cs ∈ L ↔ Shown sz qs cs ∧ cs ≠ [] ∧ one cs = false) →
        text = joinLines (L.map fun cs => amountColumn (tally (below cs qs)) ++ List.replicate (2 * levelBy one cs) ' ' ++ joinPath (chainBy one cs)) ++ footer (tally qs) →
        Ruled sz qs text L (levelBy one) (fun cs => joinPath (chainBy one cs)) := by
      intro sz qs text L one hl s m t
      refine ⟨s, fun cs hc => ((m cs).1 hc).1, t, fun cs hc => ?_⟩
      obtain ⟨n1, n2, _⟩ := chain (one := one) hl ((m cs).1 hc).1 ((m cs).1 hc).2.1
      exact ⟨n1, n2⟩
    obtain ⟨e1, e2, e3, e4⟩ := ruled_same (ruled h s1 m1 t1) (ruled h' s2 m2 t2) h h' hW hW' ht
    have eL : L = L' := by
      apply outline_unique (collapsed_outline shown_above s1 m1) (collapsed_outline shown_above s2 m2)
      apply map_decode e2
      intro a ha b hb e
      obtain ⟨g1, g2⟩ := Prod.mk.inj e
      obtain ⟨_, _, n1, n2⟩ := chain (one := one) h ((m1 a).1 ha).1 ((m1 a).1 ha).2.1
      obtain ⟨_, _, k1, k2⟩ := chain (one := one') h' ((m2 b).1 hb).1 ((m2 b).1 hb).2.1
      have e5 := joinPath_inj_ne n1 k1 n2 k2 g2
      have dr : ∀ (one : List Str → Bool) (cs : List Str), cs ≠ [] → cs.drop (cs.take ((stopsBy one cs).getLastD 0)).length = chainBy one cs := by
        intro one cs hne
        obtain ⟨s, e, h1, _⟩ := stops_last one hne
        unfold chainBy
        rw [e, List.length_take, Nat.min_eq_left (by omega)]
      rw [dr one a ((m1 a).1 ha).2.1, dr one' b ((m2 b).1 hb).2.1, g1, e5]
    have own : ∀ {sz : Bool} {qs : List Posting} {one : List Str → Bool} {L : List (List Str)}, (∀ cs, Shown sz qs cs → (one cs = true ↔ OneBelow (Shown sz qs) cs)) →
        (∀ cs, cs ∈ L ↔ Shown sz qs cs ∧ cs ≠ [] ∧ one cs = false) → ∀ cs, cs ∈ L ↔ Shown sz qs cs ∧ OwnLine fl co (Shown sz qs) cs := by
      intro sz qs one L o m cs
      rw [m, OwnLine, if_neg hfl]
      constructor
      · rintro ⟨a1, a2, a3⟩
        refine ⟨a1, a2, fun _ hb => ?_⟩
        rw [(o cs a1).2 hb] at a3
        cases a3
      · rintro ⟨a1, a2, a3⟩
        refine ⟨a1, a2, ?_⟩
        rw [← Bool.not_eq_true, o cs a1]
        exact a3 hco
    exact ⟨e1, ⟨L, own o1 m1, by rw [eL]; exact own o2 m2, finish eL e3⟩, e4⟩
  · rw [if_neg hco] at hr hr'
    obtain ⟨L, s1, m1, t1⟩ := hr
    obtain ⟨L', s2, m2, t2⟩ := hr'
    have ruled : ∀ {sz : Bool} {qs : List Posting} {text : Str} {L : List (List Str)}, (∀ p ∈ qs, p.Legible) → L.Pairwise PathLt →
        (∀ cs, cs ∈ L ↔ Shown sz qs cs ∧ cs ≠ []) →
        text = joinLines (L.map fun cs => amountColumn (tally (below cs qs)) ++ List.replicate (2 * (cs.length - 1)) ' ' ++ cs.getLastD []) ++ footer (tally qs) →
        Ruled sz qs text L (fun cs => cs.length - 1) (fun cs => cs.getLastD []) := by
      intro sz qs text L hl s m t
      refine ⟨s, fun cs hc => ((m cs).1 hc).1, t, fun cs hc => ?_⟩
      have hi : [cs.getLastD []] <:+: cs := by
        obtain ⟨x, y, rfl⟩ : ∃ x y, cs = x ++ [y] := ⟨cs.dropLast, cs.getLast ((m cs).1 hc).2, (List.dropLast_append_getLast _).symm⟩
        rw [List.getLastD_eq_getLast?, List.getLast?_concat]
        exact (List.suffix_append x [y]).isInfix
      obtain ⟨n1, n2, _⟩ := names_legible hl ((m cs).1 hc).1.1 hi
      exact ⟨n1, n2⟩
    obtain ⟨e1, e2, e3, e4⟩ := ruled_same (ruled h s1 m1 t1) (ruled h' s2 m2 t2) h h' hW hW' ht
    have eL : L = L' := by
      apply outline_unique (tree_outline shown_above s1 m1) (tree_outline shown_above s2 m2)
      apply map_decode e2
      intro a ha b hb e
      obtain ⟨g1, g2⟩ := Prod.mk.inj e
      have dr : ∀ cs : List Str, cs ≠ [] → cs.drop cs.dropLast.length = [cs.getLastD []] := by
        intro cs hne
        obtain ⟨x, y, rfl⟩ : ∃ x y, cs = x ++ [y] := ⟨cs.dropLast, cs.getLast hne, (List.dropLast_append_getLast _).symm⟩
        rw [List.getLastD_eq_getLast?, List.getLast?_concat, List.dropLast_concat, List.drop_left]
        rfl
      rw [dr a ((m1 a).1 ha).2, dr b ((m2 b).1 hb).2, g1, g2]
    have own : ∀ {sz : Bool} {qs : List Posting} {L : List (List Str)}, (∀ cs, cs ∈ L ↔ Shown sz qs cs ∧ cs ≠ []) →
        ∀ cs, cs ∈ L ↔ Shown sz qs cs ∧ OwnLine fl co (Shown sz qs) cs := by
      intro sz qs L m cs
      rw [m, OwnLine, if_neg hfl]
      exact ⟨fun ⟨a1, a2⟩ => ⟨a1, a2, fun hc => absurd hc hco⟩, fun ⟨a1, a2, _⟩ => ⟨a1, a2⟩⟩
    exact ⟨e1, ⟨L, own m1, by rw [eL]; exact own m2, finish eL e3⟩, e4⟩

/-- Amounts that look alike are equal if they are not too large. -/
theorem looksLike_eq {a b : Amount} (h : a.LooksLike b) (ha : a.quantity.toInt.natAbs < 100 * 2 ^ 46) (hb : b.quantity.toInt.natAbs < 100 * 2 ^ 46) : a = b := by
  obtain ⟨h1, h2⟩ := h
  have e := C08_display_parses_back a.quantity ha
  rw [h2, C08_display_parses_back b.quantity hb] at e
  obtain ⟨c, q⟩ := a
  obtain ⟨d, r⟩ := b
  cases h1
  cases e
  rfl

theorem shown_of_lines {fl co sz sz' : Bool} {ps ps' : List Posting} {L : List (List Str)}
    (h1 : ∀ cs, cs ∈ L ↔ Shown sz ps cs ∧ OwnLine fl co (Shown sz ps) cs) (h2 : ∀ cs, cs ∈ L ↔ Shown sz' ps' cs ∧ OwnLine fl co (Shown sz' ps') cs)
    {cs : List Str} (h : Shown sz ps cs) : Shown sz' ps' cs := by
  obtain ⟨ds, hp, hs, hl⟩ := leaf_below h
  by_cases hd : ds = []
  · subst hd
    rw [List.prefix_nil.1 hp]
    exact ⟨Or.inl rfl, Or.inr fun es he hn => absurd (List.prefix_nil.1 he) hn⟩
  · refine (((h2 ds).1 ((h1 ds).2 ⟨hs, ?_⟩)).1).up hp
    unfold OwnLine
    split
    · exact hl
    · exact ⟨hd, fun _ ⟨c, hc, _⟩ => hl c hc⟩

/-! ### C128 Different balances do not look alike -/

/-- Two balance reports of the same form with the same text show the same accounts, and on each line the same commodity and the same number, and
the same total. (In a list of paths it must be possible to tell the names apart: no account has a reserved name above it, and none begins with an
empty name.) -/
theorem C128_reports_partial {fl co sz sz' : Bool} {ps ps' : List Posting} {text : Str} (hr : BalanceReport sz fl co ps text) (hr' : BalanceReport sz' fl co ps' text)
    (h : ∀ p ∈ ps, p.Legible) (h' : ∀ p ∈ ps', p.Legible)
    (hf : fl = true → ∀ p ∈ ps ++ ps', p.components.head? ≠ some [] ∧ ∀ c ∈ p.components.dropLast, ¬ Reserved c) :
    (∀ cs, Shown sz ps cs ↔ Shown sz' ps' cs) ∧
    (∀ cs, Shown sz ps cs → OwnLine fl co (Shown sz ps) cs → (tally (below cs ps)).LooksLike (tally (below cs ps'))) ∧
    displayQuantity (tally ps).quantity = displayQuantity (tally ps').quantity := by
  obtain ⟨_, ⟨L, l1, l2, l3⟩, t⟩ := reports_same hr hr' h h' hf (W := []) (W' := []) (by simp) (by simp) rfl
  exact ⟨fun cs => ⟨shown_of_lines l1 l2, shown_of_lines l2 l1⟩, fun cs hs ho => l3 cs ((l1 cs).2 ⟨hs, ho⟩), t⟩

theorem balanceMixes_lines : ∀ (ps before : List Posting), (∀ p ∈ before ++ ps, p.Legible) →
    ∃ W : List Str, balanceMixes before ps = (W.map (· ++ ['\n'])).flatten ∧ ∀ w ∈ W, '\n' ∉ w ∧ warned <+: w := by
  intro ps
  induction ps with
  | nil => intro before _; exact ⟨[], rfl, by simp⟩
  | cons p ps ih =>
    intro before h
    obtain ⟨W, e, hW⟩ := ih (before ++ [p]) (by simpa using h)
    have one : ∃ V : List Str, balanceMix before p = (V.map (· ++ ['\n'])).flatten ∧ ∀ w ∈ V, '\n' ∉ w ∧ warned <+: w := by
      unfold balanceMix
      cases hp : p.amount with
      | none => exact ⟨[], rfl, by simp⟩
      | some a =>
        have ha := (h p (by simp)).2.2 a hp
        simp only
        generalize pathsUp p.components = l
        induction l with
        | nil => exact ⟨[], rfl, by simp⟩
        | cons cs l ihl =>
          obtain ⟨V, e1, e2⟩ := ihl
          rw [List.flatMap_cons, e1]
          have hc := firstCommodity_legible (ps := before ++ [p]) (fun q hq => h q (by
            rw [List.mem_append, List.mem_singleton] at hq
            rcases hq with hq | rfl <;> simp [*])) cs
          generalize firstCommodity (below cs (before ++ [p])) = c at hc
          unfold mixLine
          split
          · exact ⟨V, rfl, e2⟩
          · refine ⟨(str "unhandled " ++ str "addition" ++ str " of unmatched commodities: '" ++ c ++ str "' and '" ++ a.commodity ++ str "'") :: V, ?_, ?_⟩
            · rw [List.map_cons, List.flatten_cons]
              congr 1
              simp only [List.append_assoc]
              rfl
            · intro w hw
              rcases List.mem_cons.1 hw with rfl | hw
              · constructor
                · simp only [List.mem_append, not_or]
                  exact ⟨⟨⟨⟨⟨⟨by decide, by decide⟩, by decide⟩, hc.1⟩, by decide⟩, ha.1⟩, by decide⟩
                · simp only [List.append_assoc]
                  exact ⟨str "ddition" ++ (str " of unmatched commodities: '" ++ (c ++ (str "' and '" ++ (a.commodity ++ str "'")))), rfl⟩
              · exact e2 w hw
    obtain ⟨V, e1, e2⟩ := one
    refine ⟨V ++ W, by rw [balanceMixes, e1, e, List.map_append, List.flatten_append], fun w hw => ?_⟩
    rcases List.mem_append.1 hw with hw | hw
    · exact e2 w hw
    · exact hW w hw

theorem commodityText_legible [U : Unicode] {c : Str} (h : CommodityText c) (hn : '\n' ∉ c) : LegibleCommodity c := by
  obtain ⟨h1, h2, h3⟩ := h
  have fine : ∀ x, isCommodityChar x = true → isDigit x = false ∧ x ≠ '-' ∧ x ≠ ' ' := by
    intro x hx
    unfold isCommodityChar at hx
    simp only [Bool.not_eq_true', Bool.or_eq_false_iff, decide_eq_false_iff_not] at hx
    obtain ⟨⟨⟨⟨a1, a2⟩, _⟩, a4⟩, _⟩ := hx
    refine ⟨?_, a2, a4⟩
    by_contra hd
    rw [Bool.not_eq_false] at hd
    have hlt : x.toNat < 128 := by
      simp only [isDigit, Bool.and_eq_true, decide_eq_true_eq] at hd
      omega
    rw [U.number_ascii x hlt, hd] at a1
    cases a1
  refine ⟨hn, fun hm => (fine _ (h2 _ hm)).2.2 rfl, ?_, fun x hx => ?_⟩
  · rintro rfl
    exact absurd (h1 ' ' rfl) (by decide)
  · by_cases hc : c = []
    · subst hc; cases hx
    rw [← List.dropLast_append_getLast hc, List.mem_append, List.mem_singleton] at hx
    rcases hx with hx | hx
    · exact ⟨(fine x (h2 x hx)).1, (fine x (h2 x hx)).2.1⟩
    · rcases h3 x (by rw [hx, List.getLast?_eq_getLast_of_ne_nil hc]; rfl) with h | h
      · exact ⟨(fine x h).1, (fine x h).2.1⟩
      · rw [h]; decide

theorem sound_legible [Unicode] {p : Posting} (h : p.Sound) (hn : p.OnLines) : p.Legible := by
  refine ⟨hn.1, ?_, fun a ha => commodityText_legible (h.2.2.1 a ha) (hn.2.1 a ha)⟩
  rcases h.2.1 with e | e
  · rw [e]; decide
  · exact e.2.2.1

theorem accountText_head [U : Unicode] {p : Posting} (h : p.Sound) (hn : p.accountPath ≠ []) : p.components.head? ≠ some [] := by
  have ht := h.2.1.resolve_left hn
  obtain ⟨⟨c, hc, hl⟩, _⟩ := ht
  unfold Posting.components
  cases hp : p.accountPath with
  | nil => exact absurd hp hn
  | cons x s =>
    rw [hp] at hc
    have hx : c = x := by simpa using hc.symm
    subst hx
    have hcol : c ≠ ':' := by
      rintro rfl
      rw [U.letter_ascii ':' (by decide)] at hl
      revert hl
      decide
    rw [split, if_neg hcol]
    split <;> simp

theorem forall₂_mem_left {α β : Type} {R : α → β → Prop} {l : List α} {k : List β} (h : List.Forall₂ R l k) {a : α} (ha : a ∈ l) : ∃ b ∈ k, R a b := by
  induction h with
  | nil => cases ha
  | cons h1 _ ih =>
    rcases List.mem_cons.1 ha with rfl | ha
    · exact ⟨_, by simp, h1⟩
    · obtain ⟨b, hb, hr⟩ := ih ha
      exact ⟨b, by simp [hb], hr⟩

section
variable [Unicode] {m : Machine} {o : Options} {args : List Str} {bytes : List UInt8} {js : List (Meant × Str)} {filters : List Filter}
  {admits : Date → Bool} {path : Str} {out : Except Report Page}

theorem asked_sound {lib : Err → Str} (h : Reading m.fs lib m.maxOpen path bytes js out) :
    ∀ p ∈ askedPostings filters admits (meanings js), p.Sound ∧ p.OnLines := by
  intro p hp
  obtain ⟨t, ht, hp⟩ := List.mem_flatMap.1 hp
  have hp : p ∈ t.postings := by
    unfold selection at hp
    split at hp
    · exact hp
    · exact (List.mem_filter.1 hp).1
  have ht := (List.mem_filter.1 ht).1
  unfold transactionsOf meanings at ht
  rw [List.mem_filterMap] at ht
  obtain ⟨x, hx, he⟩ := ht
  obtain ⟨y, hy, rfl⟩ := List.mem_map.1 hx
  have hl := C65_one_line h y hy
  obtain ⟨c, hc, hyc⟩ := forall₂_mem_left (C99_parsed h).1 hy
  obtain ⟨x, f⟩ := y
  cases x with
  | budget => cases he
  | transaction t' =>
    cases he
    refine ⟨?_, hl.2.2.2 p hp⟩
    cases c with
    | periodic => exact hyc.elim
    | normal t' f' =>
      obtain ⟨rfl, _⟩ := hyc
      rw [delivered_calls] at hc
      exact (C65_delivered_sound m.fs recorder m.maxOpen bytes path [] t' f' hc).1.2.2.2.2.2.2.2.2 p hp

omit [Unicode] in
theorem taken_perm {qss : List (List Posting)} {ts : List Transaction} (h : List.Forall₂ (Taken filters) qss ts) :
    qss.flatten.Perm (ts.flatMap (selection filters)) := by
  induction h with
  | nil => exact List.Perm.nil
  | cons h1 _ ih =>
    rw [List.flatten_cons, List.flatMap_cons]
    exact h1.1.append ih

theorem Setting.balanced (g : Setting m o args bytes filters admits path) {pg : Page} (r : Reading m.fs m.lib m.maxOpen path bytes js (.ok pg))
    (hs : ¬ Command.balance.Short filters admits (meanings js)) :
    ∃ (ps : List Posting) (text : Str) (W : List Str), ps.Perm (askedPostings filters admits (meanings js)) ∧ BalanceReport o.showZero o.flatten o.collapse ps text ∧
      (m.run o .balance args).stdout = (W.map (· ++ ['\n'])).flatten ++ text ∧ (∀ w ∈ W, '\n' ∉ w ∧ warned <+: w) ∧ ∀ p ∈ ps, p.Legible := by
  obtain ⟨d1, d2, _⟩ := C99_parsed r
  obtain ⟨qss, text, q1, q2, q3⟩ := Heard.balance (js := js) ⟨g, d1⟩ (d2 pg rfl) hs
  have hp := taken_perm q1
  have hl : ∀ p ∈ qss.flatten, p.Legible := by
    intro p hm
    obtain ⟨a1, a2⟩ := asked_sound (filters := filters) (admits := admits) r p (hp.subset hm)
    exact sound_legible a1 a2
  obtain ⟨W, w1, w2⟩ := balanceMixes_lines qss.flatten [] (by simpa using hl)
  exact ⟨qss.flatten, text, W, hp, q2, by rw [q3, w1], w2, hl⟩

variable {m' : Machine} {o' : Options} {args' : List Str} {bytes' : List UInt8} {js' : List (Meant × Str)} {filters' : List Filter}
  {admits' : Date → Bool} {path' : Str}

/-- If two runs of `balance`, on whatever journals, with whatever arguments, print the same, then they show the same accounts, and on each line the
same commodity and the same number, and the same total. (Both with `--flat` or neither, and with `--collapse` or neither. With `--flat` no account
asked for may have a reserved name above it, and no transaction may be without postings.) -/
theorem C128_runs_partial (g : Setting m o args bytes filters admits path) {pg pg' : Page} (r : Reading m.fs m.lib m.maxOpen path bytes js (.ok pg))
    (hs : ¬ Command.balance.Short filters admits (meanings js))
    (g' : Setting m' o' args' bytes' filters' admits' path') (r' : Reading m'.fs m'.lib m'.maxOpen path' bytes' js' (.ok pg'))
    (hs' : ¬ Command.balance.Short filters' admits' (meanings js')) (h1 : o.flatten = o'.flatten) (h2 : o.collapse = o'.collapse)
    (hf : o.flatten = true → ∀ p ∈ askedPostings filters admits (meanings js) ++ askedPostings filters' admits' (meanings js'),
      p.accountPath ≠ [] ∧ ∀ c ∈ p.components.dropLast, ¬ Reserved c)
    (he : (m.run o .balance args).stdout = (m'.run o' .balance args').stdout) :
    ∃ ps ps' : List Posting, ps.Perm (askedPostings filters admits (meanings js)) ∧ ps'.Perm (askedPostings filters' admits' (meanings js')) ∧
      (∀ cs, Shown o.showZero ps cs ↔ Shown o'.showZero ps' cs) ∧
      (∀ cs, Shown o.showZero ps cs → OwnLine o.flatten o.collapse (Shown o.showZero ps) cs → (tally (below cs ps)).LooksLike (tally (below cs ps'))) ∧
      displayQuantity (tally ps).quantity = displayQuantity (tally ps').quantity := by
  obtain ⟨ps, text, W, p1, b1, t1, w1, l1⟩ := g.balanced r hs
  obtain ⟨ps', text', W', p2, b2, t2, w2, l2⟩ := g'.balanced r' hs'
  rw [t1, t2] at he
  rw [← h1, ← h2] at b2
  have hf' : o.flatten = true → ∀ p ∈ ps ++ ps', p.components.head? ≠ some [] ∧ ∀ c ∈ p.components.dropLast, ¬ Reserved c := by
    intro hfl p hp
    have hm : p ∈ askedPostings filters admits (meanings js) ++ askedPostings filters' admits' (meanings js') := by
      rcases List.mem_append.1 hp with hp | hp
      · exact List.mem_append_left _ (p1.subset hp)
      · exact List.mem_append_right _ (p2.subset hp)
    obtain ⟨f1, f2⟩ := hf hfl p hm
    refine ⟨?_, f2⟩
    rcases List.mem_append.1 hm with hm | hm
    · exact accountText_head (asked_sound r p hm).1 f1
    · exact accountText_head (asked_sound r' p hm).1 f1
  obtain ⟨_, ⟨L, k1, k2, k3⟩, t⟩ := reports_same b1 b2 l1 l2 hf' w1 w2 he
  exact ⟨ps, ps', p1, p2, fun cs => ⟨shown_of_lines k1 k2, shown_of_lines k2 k1⟩, fun cs hs ho => k3 cs ((k1 cs).2 ⟨hs, ho⟩), t⟩

/-- So with amounts below 2^46, the accounts with a line have the same sums. -/
theorem C128_sums_partial (g : Setting m o args bytes filters admits path) {pg pg' : Page} (r : Reading m.fs m.lib m.maxOpen path bytes js (.ok pg))
    (hs : ¬ Command.balance.Short filters admits (meanings js))
    (g' : Setting m' o' args' bytes' filters' admits' path') (r' : Reading m'.fs m'.lib m'.maxOpen path' bytes' js' (.ok pg'))
    (hs' : ¬ Command.balance.Short filters' admits' (meanings js')) (h1 : o.flatten = o'.flatten) (h2 : o.collapse = o'.collapse)
    (hf : o.flatten = true → ∀ p ∈ askedPostings filters admits (meanings js) ++ askedPostings filters' admits' (meanings js'),
      p.accountPath ≠ [] ∧ ∀ c ∈ p.components.dropLast, ¬ Reserved c)
    (hq : ∀ cs, (valueOf (below cs (askedPostings filters admits (meanings js)))).toInt.natAbs < 100 * 2 ^ 46 ∧
      (valueOf (below cs (askedPostings filters' admits' (meanings js')))).toInt.natAbs < 100 * 2 ^ 46)
    (he : (m.run o .balance args).stdout = (m'.run o' .balance args').stdout) (cs : List Str) :
    (Shown o.showZero (askedPostings filters admits (meanings js)) cs ↔ Shown o'.showZero (askedPostings filters' admits' (meanings js')) cs) ∧
    (Shown o.showZero (askedPostings filters admits (meanings js)) cs →
      OwnLine o.flatten o.collapse (Shown o.showZero (askedPostings filters admits (meanings js))) cs →
      valueOf (below cs (askedPostings filters admits (meanings js))) = valueOf (below cs (askedPostings filters' admits' (meanings js')))) := by
  obtain ⟨ps, ps', p1, p2, k1, k2, _⟩ := C128_runs_partial g r hs g' r' hs' h1 h2 hf he
  rw [← shown_perm p1, ← shown_perm p2]
  refine ⟨k1 cs, fun a b => ?_⟩
  obtain ⟨e1, e2⟩ := hq cs
  rw [← below_perm p1] at e1 ⊢
  rw [← below_perm p2] at e2 ⊢
  exact congrArg Amount.quantity (looksLike_eq (k2 cs a b) e1 e2)

end

/-- With `--flat` different balances can look alike: a name that the program uses itself hides the names before it. -/
theorem C128_flat_false :
    ¬ ∀ (U : Unicode) (m m' : Machine) (o : Options), (@Machine.run U m { o with flatten := true } .balance []).ending = .exit 0 →
      @Machine.run U m { o with flatten := true } .balance [] = @Machine.run U m' { o with flatten := true } .balance [] →
      @Machine.run U m { o with flatten := false } .balance [] = @Machine.run U m' { o with flatten := false } .balance [] := by
  intro h
  have := h asciiUnicode (machineWith (str "f") "2020-01-02 x\n  A:_root_:A  1\n  B\n") (machineWith (str "f") "2020-01-02 x\n  A  1\n  B\n") { file := str "f" }
  revert this
  decide +kernel

/-- Large amounts can look alike without being equal. -/
theorem C128_large_false : ¬ ∀ a b : Amount, a.LooksLike b → a = b := by
  intro h
  have := h ⟨[], 9223372036854775807⟩ ⟨[], 9223372036854775806⟩ ⟨rfl, by decide +kernel⟩
  revert this
  decide

/-- Two journals with the same balance, in each form; a blank before a name or another amount makes a difference. -/
example :
    letI := asciiUnicode
    let a := machineWith (str "f") "2020-01-02 x\n  A:b  $1\n  B\n\n2020-01-03 y\n  A:b  $2\n  B\n"
    let b := machineWith (str "f") "2020-01-02 x\n  B  $-3\n  A:b\n\n2020-01-04 z\n  C  $0\n  B  $0\n"
    let c := machineWith (str "f") "2020-01-02 x\n  A: b  $3\n  B\n"
    let d := machineWith (str "f") "2020-01-02 x\n  A:b  $3.01\n  B\n"
    ∀ o ∈ [({ file := str "f" } : Options), { file := str "f", collapse := true }, { file := str "f", flatten := true }],
      (a.run o .balance []).stdout = (b.run o .balance []).stdout ∧ (b.run o .balance []).stdout ≠ (c.run o .balance []).stdout ∧
        (c.run o .balance []).stdout ≠ (d.run o .balance []).stdout := by
  decide +kernel

/-- The circumstances of the examples, twice. -/
example :
    letI := asciiUnicode
    ∃ pg, Reading wholeMachine.fs wholeMachine.lib wholeMachine.maxOpen (str "f") (journalText wholeJournal) (wholeMeaning.map fun x => (x, str "f")) (.ok pg) ∧
      ¬ Command.balance.Short [wholeFilter] wholeDays (meanings (wholeMeaning.map fun x => (x, str "f"))) ∧
      ∀ p ∈ askedPostings [wholeFilter] wholeDays (meanings (wholeMeaning.map fun x => (x, str "f"))), p.Legible ∧ p.accountPath ≠ [] ∧
        ∀ c ∈ p.components.dropLast, ¬ Reserved c := by
  let := asciiUnicode
  obtain ⟨pg, h⟩ := C99_well_formed wholeGiven
  have hn : ∀ p ∈ askedPostings [wholeFilter] wholeDays (meanings (wholeMeaning.map fun x => (x, str "f"))), p.amount ≠ none ∧ p.accountPath ≠ [] ∧
      ∀ c ∈ p.components.dropLast, ¬ Reserved c := by decide +kernel
  refine ⟨pg, h, fun ⟨p, hp, e⟩ => (hn p hp).1 e, fun p hp => ⟨?_, (hn p hp).2⟩⟩
  obtain ⟨a, b⟩ := asked_sound (m := wholeMachine) (admits := wholeDays) (filters := [wholeFilter]) h p hp
  exact sound_legible a b

end Gledger
