/-
Lemmas for reading a balance report: what the parts of a line are, and which accounts the lines are about.
-/
import Verif.Props.Names
import Verif.Props.Local
import Verif.Spec.Alike

namespace Gledger

/-! ### Paths -/

theorem joinPath_cons {c : Str} {cs : List Str} (h : cs ≠ []) : joinPath (c :: cs) = c ++ ':' :: joinPath cs := by
  cases cs with
  | nil => exact absurd rfl h
  | cons d ds => rfl

theorem joinPath_append {a b : List Str} (ha : a ≠ []) (hb : b ≠ []) : joinPath (a ++ b) = joinPath a ++ ':' :: joinPath b := by
  induction a with
  | nil => exact absurd rfl ha
  | cons x a ih =>
    cases a with
    | nil => rw [List.singleton_append, joinPath_cons hb]; rfl
    | cons y a => rw [List.cons_append, joinPath_cons (by simp), ih (by simp), joinPath_cons (c := x) (cs := y :: a) (by simp), List.append_assoc, List.cons_append]

theorem joinPath_infix {a b : List Str} (h : a <:+: b) : joinPath a <:+: joinPath b := by
  obtain ⟨x, y, rfl⟩ := h
  by_cases ha : a = []
  · subst ha; exact List.nil_infix
  have h1 : joinPath a <:+: joinPath (x ++ a) := by
    by_cases hx : x = []
    · subst hx; exact List.infix_rfl
    · rw [joinPath_append hx ha]; exact ⟨joinPath x ++ [':'], [], by simp⟩
  by_cases hy : y = []
  · subst hy; simpa using h1
  · rw [joinPath_append (by simp [ha]) hy]
    exact h1.trans ⟨[], ':' :: joinPath y, by simp⟩

theorem joinPath_split (s : Str) : joinPath (split ':' s) = s := by
  induction s with
  | nil => rfl
  | cons c s ih =>
    rw [split]
    split
    · rename_i h
      subst h
      rw [joinPath_cons (by have := Posting.components_ne { accountPath := s }; exact this), ih]
      rfl
    · split
      · rename_i h
        have := Posting.components_ne { accountPath := s }
        exact absurd h this
      · rename_i w ws h
        rw [h] at ih
        rw [← ih]
        cases ws with
        | nil => rfl
        | cons v vs => rfl

theorem split_parts (sep : Char) (s : Str) : ∀ c ∈ split sep s, sep ∉ c := by
  induction s with
  | nil => intro c hc; simp [split] at hc; simp [hc]
  | cons x s ih =>
    intro c hc
    rw [split] at hc
    split at hc
    · rcases List.mem_cons.1 hc with rfl | hc
      · simp
      · exact ih c hc
    · rename_i hx
      split at hc
      · rw [List.mem_singleton] at hc; subst hc; simpa using fun h => hx h.symm
      · rename_i w ws h
        rcases List.mem_cons.1 hc with rfl | hc
        · rw [List.mem_cons, not_or]
          exact ⟨fun h => hx h.symm, ih w (by rw [h]; simp)⟩
        · exact ih c (by rw [h]; simp [hc])

/-! ### Parts of a line -/

theorem replicate_cancel {i j : Nat} {n m : Str} (he : i % 2 = j % 2) (hn : ¬ [' ', ' '] <:+: n) (hm : ¬ [' ', ' '] <:+: m)
    (h : List.replicate i ' ' ++ n = List.replicate j ' ' ++ m) : i = j ∧ n = m := by
  have key : ∀ {i j : Nat} {n m : Str}, i % 2 = j % 2 → ¬ [' ', ' '] <:+: n → List.replicate i ' ' ++ n = List.replicate j ' ' ++ m → j ≤ i := by
    intro i j n m he hn h
    by_contra hc
    obtain ⟨k, rfl⟩ : ∃ k, j = i + (k + 2) := ⟨j - i - 2, by omega⟩
    rw [List.replicate_add, List.append_assoc] at h
    have := List.append_cancel_left h
    apply hn
    rw [this]
    exact ⟨[], List.replicate k ' ' ++ m, by simp [List.replicate_succ]⟩
  have e : i = j := Nat.le_antisymm (key he.symm hm h.symm) (key he hn h)
  subst e
  exact ⟨rfl, List.append_cancel_left h⟩

theorem not_all_blank {s : Str} {c : Char} {n : Nat} (h : s.getLast? = some c) (hc : c ≠ ' ') {t : Str} (he : List.replicate n ' ' = s ++ t) : False := by
  have : c ∈ List.replicate n ' ' := by rw [he]; simp [List.mem_of_getLast? h]
  exact hc (List.eq_of_mem_replicate this)

/-- The first part of a line ends in ink, two blanks or more follow, and the last part has no two blanks in a row. -/
theorem cut_inj {x y n m : Str} {i j : Nat} (he : i % 2 = j % 2) (hx : ∃ c, x.getLast? = some c ∧ c ≠ ' ') (hy : ∃ c, y.getLast? = some c ∧ c ≠ ' ')
    (hn : ¬ [' ', ' '] <:+: n) (hm : ¬ [' ', ' '] <:+: m)
    (h : x ++ (List.replicate (i + 2) ' ' ++ n) = y ++ (List.replicate (j + 2) ' ' ++ m)) : x = y ∧ i = j ∧ n = m := by
  have key : ∀ {a n m : Str} {i j : Nat} {c : Char}, a.getLast? = some c → c ≠ ' ' → ¬ [' ', ' '] <:+: n →
      List.replicate i ' ' ++ n = a ++ (List.replicate (j + 2) ' ' ++ m) → False := by
    intro a n m i j c ha hc hn h
    rcases List.append_eq_append_iff.1 h with ⟨b, h1, h2⟩ | ⟨b, h1, _⟩
    · apply hn
      rw [h2]
      exact ⟨b, List.replicate j ' ' ++ m, by simp [List.replicate_succ]⟩
    · exact not_all_blank ha hc h1
  have lastOf : ∀ {x y a : Str}, (∃ c, y.getLast? = some c ∧ c ≠ ' ') → y = x ++ a → a ≠ [] → ∃ c, a.getLast? = some c ∧ c ≠ ' ' := by
    rintro x y a ⟨c, h1, h2⟩ rfl ha
    refine ⟨c, ?_, h2⟩
    rw [List.getLast?_append] at h1
    cases hl : a.getLast? with
    | none => exact absurd (List.getLast?_eq_none_iff.1 hl) ha
    | some d => rw [hl] at h1; simpa using h1
  have exy : x = y := by
    rcases List.append_eq_append_iff.1 h with ⟨a, h1, h2⟩ | ⟨a, h1, h2⟩
    · by_cases ha : a = []
      · subst ha; simpa using h1.symm
      · obtain ⟨c, hc, hb⟩ := lastOf hy h1 ha
        exact (key hc hb hn h2).elim
    · by_cases ha : a = []
      · subst ha; simpa using h1
      · obtain ⟨c, hc, hb⟩ := lastOf hx h1 ha
        exact (key hc hb hm h2).elim
  subst exy
  obtain ⟨e1, e2⟩ := replicate_cancel (by omega) hn hm (List.append_cancel_left h)
  exact ⟨rfl, by omega, e2⟩

theorem dropWhile_blanks {n : Nat} {s : Str} (h : s.head? ≠ some ' ') : (List.replicate n ' ' ++ s).dropWhile (· = ' ') = s := by
  induction n with
  | zero =>
    cases s with
    | nil => rfl
    | cons c s => have : c ≠ ' ' := by simpa using h
                  simp [this]
  | succ n ih => rw [List.replicate_succ, List.cons_append, List.dropWhile_cons]; simpa using ih

theorem rightAligned_inj {w : Nat} {s t : Str} (hs : s.head? ≠ some ' ') (ht : t.head? ≠ some ' ') (h : rightAligned w s = rightAligned w t) : s = t := by
  unfold rightAligned at h
  rw [← dropWhile_blanks (n := w - s.length) hs, h, dropWhile_blanks ht]

/-! ### Amounts -/

theorem displayQuantity_chars (q : I64) : ∀ c ∈ displayQuantity q, isDigit c = true ∨ c = '-' ∨ c = '.' := by
  have d : ∀ {s : Str}, Digits s → ∀ c ∈ s, isDigit c = true := by
    intro s h c hc
    have := h.2 c hc
    simpa [isDigit, Digit] using this
  intro c hc
  unfold displayQuantity renderHundredths at hc
  rw [List.mem_append] at hc
  rcases hc with hc | hc
  · split at hc
    · rw [List.mem_singleton] at hc; exact Or.inr (Or.inl hc)
    · cases hc
  · rw [List.mem_append, List.mem_append, List.mem_singleton] at hc
    rcases hc with (hc | hc) | hc
    · exact Or.inl (d (natDigits_digits _) c hc)
    · exact Or.inr (Or.inr hc)
    · exact Or.inl (d (pad2_digits _) c hc)

theorem displayQuantity_head (q : I64) : ∃ c s, displayQuantity q = c :: s ∧ (isDigit c = true ∨ c = '-') := by
  unfold displayQuantity renderHundredths
  split
  · exact ⟨'-', _, rfl, Or.inr rfl⟩
  · generalize Dbl.hundredths _ = n
    have h := natDigits_digits (n / 100)
    cases hd : natDigits (n / 100) with
    | nil => exact absurd hd h.1
    | cons c s =>
      refine ⟨c, _, rfl, Or.inl ?_⟩
      have := h.2 c (by rw [hd]; simp)
      simpa [isDigit, Digit] using this

theorem displayQuantity_last (q : I64) : ∃ c, (displayQuantity q).getLast? = some c ∧ c ≠ ' ' := by
  unfold displayQuantity renderHundredths
  generalize Dbl.hundredths _ = n
  have h := pad2_digits (n % 100)
  cases hl : (pad2 (n % 100)).getLast? with
  | none => exact absurd (List.getLast?_eq_none_iff.1 hl) h.1
  | some c =>
    refine ⟨c, by simp [List.getLast?_append, List.getLast?_cons, hl], ?_⟩
    have := h.2 c (List.mem_of_getLast? hl)
    rintro rfl
    revert this
    decide

theorem commodity_split {c d : Str} {q r : I64} (hc : ∀ x ∈ c, isDigit x = false ∧ x ≠ '-') (hd : ∀ x ∈ d, isDigit x = false ∧ x ≠ '-')
    (h : c ++ displayQuantity q = d ++ displayQuantity r) : c = d ∧ displayQuantity q = displayQuantity r := by
  have key : ∀ {c : Str} {q : I64}, (∀ x ∈ c, isDigit x = false ∧ x ≠ '-') → (c ++ displayQuantity q).takeWhile (fun x => !isDigit x && x != '-') = c := by
    intro c q hc
    obtain ⟨x, s, e, hx⟩ := displayQuantity_head q
    rw [List.takeWhile_append_of_pos (fun x hx => by simp [hc x hx]), e, List.takeWhile_cons_of_neg (by rcases hx with h | h <;> simp [h]), List.append_nil]
  have e : c = d := by rw [← key hc, h, key hd]
  subst e
  exact ⟨rfl, List.append_cancel_left h⟩


/-! ### Which accounts the lines are about -/

/-- A list of accounts in order, each on a level and below another account in the list (or below none, on level 0). -/
structure Outline (L : List (List Str)) (level : List Str → Nat) (up : List Str → List Str) : Prop where
  sorted : L.Pairwise PathLt
  ne : ∀ cs ∈ L, cs ≠ []
  above : ∀ cs ∈ L, up cs <+: cs ∧ up cs ≠ cs
  under : ∀ cs ∈ L, (up cs = [] ∧ level cs = 0) ∨ (up cs ∈ L ∧ level cs = level (up cs) + 1)
  next : ∀ x ∈ L, ∀ cs ∈ L, x <+: cs → x ≠ cs → x <+: up cs

theorem Outline.rises {L : List (List Str)} {level : List Str → Nat} {up : List Str → List Str} (o : Outline L level up) :
    ∀ {a b : List Str}, a ∈ L → b ∈ L → a <+: b → a ≠ b → level a < level b := by
  have key : ∀ (n : Nat) {a b : List Str}, b.length = n → a ∈ L → b ∈ L → a <+: b → a ≠ b → level a < level b := by
    intro n
    induction n using Nat.strong_induction_on with
    | _ n ih =>
      intro a b hn ha hb hp hne
      have h1 := o.next a ha b hb hp hne
      rcases o.under b hb with ⟨h2, _⟩ | ⟨h2, h3⟩
      · rw [h2] at h1
        exact absurd (List.prefix_nil.1 h1) (o.ne a ha)
      · by_cases e : a = up b
        · rw [h3, ← e]; omega
        · have hl : (up b).length < n := by
            obtain ⟨h4, h5⟩ := o.above b hb
            rw [← hn]
            refine lt_of_le_of_ne h4.length_le fun h => h5 (h4.eq_of_length h)
          have := ih _ hl rfl ha h2 h1 e
          omega
  intro a b ha hb
  exact key _ rfl ha hb

theorem prefix_between {d x e : List Str} (h1 : d = x ∨ PathLt d x) (h2 : PathLt x (d ++ e)) : d <+: x := by
  rcases h1 with rfl | h1
  · exact List.prefix_rfl
  induction d generalizing x with
  | nil => exact List.nil_prefix
  | cons a d ih =>
    cases h1 with
    | cons h1 =>
      cases h2 with
      | cons h2 => rw [List.cons_prefix_cons]; exact ⟨rfl, ih h2 h1⟩
      | rel h2 => exact absurd h2 (StrLt.irrefl _)
    | rel h1 =>
      cases h2 with
      | cons h2 => exact absurd h1 (StrLt.irrefl _)
      | rel h2 => exact absurd (h1.trans h2) (StrLt.irrefl _)

theorem Outline.init {L : List (List Str)} {y : List Str} {level : List Str → Nat} {up : List Str → List Str} (o : Outline (L ++ [y]) level up) :
    Outline L level up := by
  have hs := List.pairwise_append.1 o.sorted
  refine ⟨hs.1, fun cs h => o.ne cs (by simp [h]), fun cs h => o.above cs (by simp [h]), fun cs h => ?_,
    fun x hx cs h => o.next x (by simp [hx]) cs (by simp [h])⟩
  rcases o.under cs (by simp [h]) with h1 | ⟨h1, h2⟩
  · exact Or.inl h1
  · refine Or.inr ⟨?_, h2⟩
    rw [List.mem_append, List.mem_singleton] at h1
    refine h1.resolve_right fun e => ?_
    obtain ⟨⟨t, ht⟩, hne⟩ := o.above cs (by simp [h])
    have lt : PathLt (up cs) cs := by
      have : t ≠ [] := by rintro rfl; exact hne (by simpa using ht)
      conv => rhs; rw [← ht]
      exact PathLt.extend _ this
    rw [e] at lt
    exact PathLt.irrefl _ (lt.trans (hs.2.2 cs h y (by simp)))

/-- Where a line belongs: below the account on the last line of the level above. -/
theorem Outline.upon {L : List (List Str)} {y : List Str} {level : List Str → Nat} {up : List Str → List Str} (o : Outline (L ++ [y]) level up)
    (h : up y ∈ L ++ [y]) : up y ∈ L ∧ ∃ x ∈ L.getLast?, up y <+: x := by
  have hs := List.pairwise_append.1 o.sorted
  obtain ⟨⟨t, ht⟩, hne⟩ := o.above y (by simp)
  rw [List.mem_append, List.mem_singleton] at h
  have hm := h.resolve_right hne
  refine ⟨hm, ?_⟩
  cases hl : L.getLast? with
  | none => rw [List.getLast?_eq_none_iff.1 hl] at hm; cases hm
  | some x =>
    refine ⟨x, rfl, ?_⟩
    obtain ⟨K, rfl⟩ : ∃ K, L = K ++ [x] := ⟨L.dropLast, (List.dropLast_append_getLast? x hl).symm⟩
    apply prefix_between (e := t)
    · rw [List.mem_append, List.mem_singleton] at hm
      rcases hm with hm | hm
      · exact Or.inr ((List.pairwise_append.1 hs.1).2.2 _ hm x (by simp))
      · exact Or.inl hm
    · rw [ht]
      exact hs.2.2 x (by simp) y (by simp)

/-- The levels of the lines and the names on them tell the accounts. -/
theorem outline_unique {level level' : List Str → Nat} {up up' : List Str → List Str} : ∀ {L L' : List (List Str)}, Outline L level up → Outline L' level' up' →
    L.map (fun cs => (level cs, cs.drop (up cs).length)) = L'.map (fun cs => (level' cs, cs.drop (up' cs).length)) → L = L' := by
  intro L
  induction L using List.reverseRecOn with
  | nil =>
    intro L' _ _ h
    cases L' with
    | nil => rfl
    | cons _ _ => cases h
  | append_singleton K y ih =>
    intro L' o o' h
    rcases List.eq_nil_or_concat L' with rfl | ⟨K', y', e⟩
    · simp at h
    subst e
    rw [List.concat_eq_append] at *
    rw [List.map_append, List.map_append, List.map_singleton, List.map_singleton] at h
    obtain ⟨h1, h2⟩ := List.append_inj' h rfl
    have hk := ih o.init o'.init h1
    subst hk
    rw [List.cons.injEq, Prod.mk.injEq] at h2
    obtain ⟨⟨hl, hd⟩, -⟩ := h2
    have lev : ∀ cs ∈ K, level cs = level' cs := by
      intro cs hcs
      have := List.map_inj_left.1 h1 cs hcs
      exact congrArg Prod.fst this
    have hup : up y = up' y' := by
      rcases o.under y (by simp) with ⟨u1, u2⟩ | ⟨u1, u2⟩
      · rcases o'.under y' (by simp) with ⟨v1, _⟩ | ⟨_, v2⟩
        · rw [u1, v1]
        · omega
      · rcases o'.under y' (by simp) with ⟨_, v2⟩ | ⟨v1, v2⟩
        · omega
        · obtain ⟨m1, x, hx, p1⟩ := o.upon u1
          obtain ⟨m2, x', hx', p2⟩ := o'.upon v1
          rw [hx] at hx'
          cases hx'
          have e : level (up y) = level (up' y') := by rw [lev _ m2]; omega
          by_contra hne
          rcases List.prefix_or_prefix_of_prefix p1 p2 with hp | hp
          · exact absurd (o.init.rises m1 m2 hp hne) (by omega)
          · exact absurd (o.init.rises m2 m1 hp (Ne.symm hne)) (by omega)
    have ey : y = y' := by
      obtain ⟨t, ht⟩ := (o.above y (by simp)).1
      obtain ⟨t', ht'⟩ := (o'.above y' (by simp)).1
      have e1 : y.drop (up y).length = t := by rw [← List.drop_left (l₁ := up y) (l₂ := t), ht]
      have e2 : y'.drop (up' y').length = t' := by rw [← List.drop_left (l₁ := up' y') (l₂ := t'), ht']
      rw [← ht, ← ht', hup, ← e1, hd, e2]
    rw [ey]

theorem tree_outline {S : List Str → Prop} (hS : ∀ cs ds, S cs → ds <+: cs → S ds) {L : List (List Str)} (hs : L.Pairwise PathLt) (hL : ∀ cs, cs ∈ L ↔ S cs ∧ cs ≠ []) :
    Outline L (fun cs => cs.length - 1) List.dropLast where
  sorted := hs
  ne cs h := ((hL cs).1 h).2
  above cs h := by
    refine ⟨List.dropLast_prefix cs, fun e => ?_⟩
    have := congrArg List.length e
    rw [List.length_dropLast] at this
    have := List.length_pos_iff.2 ((hL cs).1 h).2
    omega
  under cs h := by
    by_cases e : cs.dropLast = []
    · left
      refine ⟨e, ?_⟩
      have := congrArg List.length e
      rw [List.length_dropLast] at this
      exact this
    · right
      refine ⟨(hL _).2 ⟨hS _ _ ((hL cs).1 h).1 (List.dropLast_prefix cs), e⟩, ?_⟩
      have := List.length_pos_iff.2 e
      rw [List.length_dropLast] at this ⊢
      omega
  next x hx cs h hp hne := by
    obtain ⟨t, rfl⟩ := hp
    have : t ≠ [] := by rintro rfl; exact hne (by simp)
    rw [List.dropLast_append_of_ne_nil this]
    exact List.prefix_append _ _

theorem filter_range_last (f : Nat → Bool) (n s : Nat) (h : ((List.range n).filter f).getLast? = some s) :
    (List.range n).filter f = (List.range s).filter f ++ [s] ∧ s < n ∧ f s = true := by
  induction n with
  | zero => simp at h
  | succ n ih =>
    rw [List.range_succ, List.filter_append] at h ⊢
    by_cases hf : f n = true
    · rw [List.filter_cons_of_pos hf, List.filter_nil, List.getLast?_concat, Option.some.injEq] at h
      subst h
      rw [List.filter_cons_of_pos hf, List.filter_nil]
      exact ⟨rfl, by omega, hf⟩
    · rw [List.filter_cons_of_neg hf, List.filter_nil, List.append_nil] at h ⊢
      obtain ⟨h1, h2, h3⟩ := ih h
      exact ⟨h1, by omega, h3⟩

theorem stops_last (one : List Str → Bool) {cs : List Str} (h : cs ≠ []) : ∃ s, (stopsBy one cs).getLastD 0 = s ∧ s < cs.length ∧
    (s = 0 ∨ one (cs.take s) = false) ∧ stopsBy one cs = stopsBy one (cs.take s) ++ [s] := by
  have h0 : 0 ∈ stopsBy one cs := by
    unfold stopsBy
    rw [List.mem_filter, List.mem_range]
    exact ⟨List.length_pos_iff.2 h, by simp⟩
  cases hl : (stopsBy one cs).getLast? with
  | none => rw [List.getLast?_eq_none_iff.1 hl] at h0; cases h0
  | some s =>
    obtain ⟨h1, h2, h3⟩ := filter_range_last _ _ _ hl
    refine ⟨s, by rw [List.getLastD_eq_getLast?, hl]; rfl, h2, by simpa using h3, ?_⟩
    show (List.range cs.length).filter _ = _
    rw [h1]
    congr 1
    unfold stopsBy
    rw [List.length_take, Nat.min_eq_left (by omega)]
    apply List.filter_congr
    intro i hi
    rw [List.mem_range] at hi
    rw [List.take_take, Nat.min_eq_left (by omega)]

theorem stopsBy_ne (one : List Str → Bool) {cs : List Str} (h : cs ≠ []) : stopsBy one cs ≠ [] := by
  obtain ⟨s, _, _, _, e⟩ := stops_last one h
  rw [e]
  simp

theorem collapsed_outline {S : List Str → Prop} (hS : ∀ cs ds, S cs → ds <+: cs → S ds) {L : List (List Str)} {one : List Str → Bool} (hs : L.Pairwise PathLt)
    (hL : ∀ cs, cs ∈ L ↔ S cs ∧ cs ≠ [] ∧ one cs = false) :
    Outline L (levelBy one) (fun cs => cs.take ((stopsBy one cs).getLastD 0)) where
  sorted := hs
  ne cs h := ((hL cs).1 h).2.1
  above cs h := by
    obtain ⟨s, e, h1, _⟩ := stops_last one ((hL cs).1 h).2.1
    refine ⟨List.take_prefix _ _, fun e' => ?_⟩
    have := congrArg List.length e'
    rw [e, List.length_take] at this
    omega
  under cs h := by
    obtain ⟨h3, h4, _⟩ := (hL cs).1 h
    obtain ⟨s, e, h1, h2, e2⟩ := stops_last one h4
    unfold levelBy
    rw [e]
    by_cases h0 : s = 0
    · subst h0
      left
      rw [e2]
      exact ⟨rfl, by simp [stopsBy]⟩
    · right
      have hne : cs.take s ≠ [] := by
        rw [← List.length_pos_iff, List.length_take]
        omega
      refine ⟨(hL _).2 ⟨hS _ _ h3 (List.take_prefix _ _), hne, h2.resolve_left h0⟩, ?_⟩
      have := List.length_pos_iff.2 (stopsBy_ne one hne)
      rw [e2, List.length_append, List.length_singleton]
      omega
  next x hx cs h hp hne := by
    obtain ⟨h3, h4, _⟩ := (hL cs).1 h
    obtain ⟨s, e, h1, h2, e2⟩ := stops_last one h4
    obtain ⟨_, g2, g3⟩ := (hL x).1 hx
    have hlen : x.length < cs.length := lt_of_le_of_ne hp.length_le fun h => hne (hp.eq_of_length h)
    have hm : x.length ∈ stopsBy one cs := by
      unfold stopsBy
      rw [List.mem_filter, List.mem_range]
      refine ⟨hlen, ?_⟩
      rw [← List.prefix_iff_eq_take.1 hp]
      simp [g3]
    rw [e2, List.mem_append, List.mem_singleton] at hm
    have hle : x.length ≤ s := by
      rcases hm with hm | hm
      · unfold stopsBy at hm
        rw [List.mem_filter, List.mem_range, List.length_take] at hm
        omega
      · omega
    rw [e, List.prefix_iff_eq_take.1 hp]
    exact List.take_prefix_take_left hle

end Gledger
