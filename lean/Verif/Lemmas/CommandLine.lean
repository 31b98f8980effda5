/-
Lemmas: reading the arguments of a command.
-/
import Verif.Spec.CommandLine

namespace Gledger

/-! ### Flags -/

theorem short_inj {f g : Flag} (h : f.short = g.short) : f = g := by
  cases f <;> cases g <;> first | rfl | (revert h; decide)

theorem long_inj {f g : Flag} (h : f.long = g.long) : f = g := by
  cases f <;> cases g <;> first | rfl | (revert h; decide)

theorem lookupShort_iff {fs : List Flag} {c : Char} {f : Flag} : lookupShort fs c = some f ↔ f ∈ fs ∧ f.short = c := by
  unfold lookupShort
  constructor
  · intro h
    exact ⟨List.mem_of_find?_eq_some h, by simpa using List.find?_some h⟩
  · rintro ⟨h1, rfl⟩
    cases hr : fs.find? fun g => decide (g.short = f.short) with
    | none => exact absurd (List.find?_eq_none.1 hr f h1) (by simp)
    | some g =>
      have : g = f := short_inj (by simpa using List.find?_some hr)
      rw [this]

theorem lookupLong_iff {fs : List Flag} {n : Str} {f : Flag} : lookupLong fs n = some f ↔ f ∈ fs ∧ f.long = n := by
  unfold lookupLong
  constructor
  · intro h
    exact ⟨List.mem_of_find?_eq_some h, by simpa using List.find?_some h⟩
  · rintro ⟨h1, rfl⟩
    cases hr : fs.find? fun g => decide (g.long = f.long) with
    | none => exact absurd (List.find?_eq_none.1 hr f h1) (by simp)
    | some g =>
      have : g = f := long_inj (by simpa using List.find?_some hr)
      rw [this]

theorem isSwitch_iff {f : Flag} : f.isSwitch = true ↔ ¬ ValueFlag f := by cases f <;> decide

theorem isSwitch_false {f : Flag} : f.isSwitch = false ↔ ValueFlag f := by cases f <;> decide

theorem parseBool_iff {v : Str} {b : Bool} : parseBool v = some b ↔ OnOff v b := by
  have key : ∀ l : List Str, (v ∈ l) = (v ∈ l) := fun _ => rfl
  unfold parseBool OnOff
  constructor
  · intro h
    split at h
    · rename_i hm
      cases h
      simp only [List.mem_cons, List.not_mem_nil, or_false] at hm
      left
      exact ⟨rfl, by tauto⟩
    · split at h
      · rename_i hm
        cases h
        simp only [List.mem_cons, List.not_mem_nil, or_false] at hm
        right
        exact ⟨rfl, by tauto⟩
      · cases h
  · rintro (⟨rfl, rfl | rfl | rfl | rfl | rfl | rfl⟩ | ⟨rfl, rfl | rfl | rfl | rfl | rfl | rfl⟩) <;> decide

/-! ### What the pieces do -/

/-- The effect of one piece. -/
def Parsed.apply (p : Parsed) : Piece → Parsed
  | .value .file v => { p with options := { p.options with file := v } }
  | .value .beginDate v => { p with options := { p.options with beginDate := v } }
  | .value .endDate v => { p with options := { p.options with endDate := v } }
  | .value _ _ => p
  | .switch f b => p.switch f b
  | .word w => { p with args := p.args ++ [w] }

/-- The effect of some pieces. -/
def Parsed.after (p : Parsed) (ps : List Piece) : Parsed := ps.foldl Parsed.apply p

theorem after_cons (p : Parsed) (x : Piece) (ps : List Piece) : p.after (x :: ps) = (p.apply x).after ps := rfl

theorem after_append (p : Parsed) (ps qs : List Piece) : p.after (ps ++ qs) = (p.after ps).after qs := List.foldl_append ..

theorem after_words (p : Parsed) (l : List Str) : p.after (l.map .word) = { p with args := p.args ++ l } := by
  induction l generalizing p with
  | nil => simp [Parsed.after]
  | cons w l ih => rw [List.map_cons, after_cons, ih]; simp [Parsed.apply]

theorem set_value (p : Parsed) {f : Flag} (hf : ValueFlag f) (v : Str) : p.set f v = some (p.apply (.value f v)) := by
  rcases hf with rfl | rfl | rfl <;> rfl

theorem set_switch (p : Parsed) {f : Flag} (hf : ¬ ValueFlag f) (v : Str) : p.set f v = (parseBool v).map fun b => p.apply (.switch f b) := by
  cases f <;> first | rfl | exact absurd (by decide) hf

theorem set_iff (p q : Parsed) {f : Flag} {v : Str} : p.set f v = some q ↔
    (ValueFlag f ∧ q = p.apply (.value f v)) ∨ (¬ ValueFlag f ∧ ∃ b, OnOff v b ∧ q = p.apply (.switch f b)) := by
  by_cases hf : ValueFlag f
  · rw [set_value p hf]
    simp only [Option.some.injEq, hf, true_and, not_true, false_and, or_false]
    exact eq_comm
  · rw [set_switch p hf]
    simp only [hf, false_and, false_or, not_false_eq_true, true_and, Option.map_eq_some_iff, parseBool_iff]
    exact exists_congr fun b => and_congr Iff.rfl eq_comm

theorem lastValue_concat (f : Flag) (ps : List Piece) (x : Piece) :
    lastValue f (ps ++ [x]) = match x with
      | .value g v => if g = f then v else lastValue f ps
      | _ => lastValue f ps := by
  unfold lastValue
  rw [List.filterMap_append]
  cases x with
  | value g v => by_cases h : g = f <;> simp [h]
  | switch g b => simp
  | word w => simp

theorem lastSwitch_concat (f : Flag) (ps : List Piece) (x : Piece) :
    lastSwitch f (ps ++ [x]) = match x with
      | .switch g b => if g = f then b else lastSwitch f ps
      | _ => lastSwitch f ps := by
  unfold lastSwitch
  rw [List.filterMap_append]
  cases x with
  | switch g v => by_cases h : g = f <;> simp [h]
  | value g b => simp
  | word w => simp

theorem wordsOf_concat (ps : List Piece) (x : Piece) :
    wordsOf (ps ++ [x]) = match x with
      | .word w => wordsOf ps ++ [w]
      | _ => wordsOf ps := by
  unfold wordsOf
  rw [List.filterMap_append]
  cases x <;> simp

/-- All pieces together make the settings they mean. -/
theorem after_meaning (ps : List Piece) : Parsed.after {} ps = ⟨optionsOf ps, lastSwitch .help ps, wordsOf ps⟩ := by
  induction ps using List.reverseRecOn with
  | nil => rfl
  | append_singleton ps x ih =>
    rw [after_append, ih, after_cons, show ∀ p : Parsed, p.after [] = p from fun _ => rfl]
    unfold optionsOf
    simp only [lastValue_concat, lastSwitch_concat, wordsOf_concat]
    cases x with
    | value g v => cases g <;> simp [Parsed.apply]
    | switch g b => cases g <;> simp [Parsed.apply, Parsed.switch]
    | word w => simp [Parsed.apply]

/-! ### One-letter flags -/

theorem short_ne {f : Flag} : f.short ≠ '-' ∧ f.short ≠ '=' ∧ f.short ≠ 't' := by cases f <;> decide

theorem test_prefix {c : Char} {rest : Str} : str "test." <+: c :: rest → c = 't' := by
  rintro ⟨t, ht⟩
  have : str "test." = ['t', 'e', 's', 't', '.'] := by decide
  rw [this] at ht
  simp only [List.cons_append, List.cons.injEq] at ht
  exact ht.1.symm

/-- No bundle begins with `=` or `-`. -/
theorem Bundle.head {fs : List Flag} {b : Str} {ps : List Piece} {nx : Option Flag} (h : Bundle fs b ps nx) : b.head? ≠ some '=' ∧ b.head? ≠ some '-' := by
  have hs : ∀ f : Flag, f.short ≠ '=' ∧ f.short ≠ '-' := fun f => ⟨short_ne.2.1, short_ne.1⟩
  cases h with
  | done => simp
  | ignored rest => rw [show str "test." = ['t', 'e', 's', 't', '.'] by decide]; simp
  | attached => simpa using hs _
  | equals => simpa using hs _
  | set => simpa using hs _
  | next => simpa using hs _
  | on => simpa using hs _

theorem parseShort_of {fs : List Flag} {b : Str} {ps : List Piece} {nx : Option Flag} (h : Bundle fs b ps nx) : ∀ p : Parsed,
    parseShort fs b p = some (p.after ps, nx) := by
  have nt : ∀ {f : Flag} {r : Str}, ¬ str "test." <+: f.short :: r := fun h => short_ne.2.2 (test_prefix h)
  induction h with
  | done => intro p; rfl
  | ignored rest =>
    intro p
    have : str "test." ++ rest = 't' :: (str "est." ++ rest) := by
      rw [show str "test." = ['t', 'e', 's', 't', '.'] by decide, show str "est." = ['e', 's', 't', '.'] by decide]; rfl
    rw [this, parseShort, if_pos (by rw [← this]; exact List.prefix_append _ _)]
    rfl
  | @attached f v hf hv hne heq =>
    intro p
    have h1 : ¬ (v.head? = some '=' ∧ 1 < v.length) := by
      rintro ⟨h1, h2⟩
      rcases heq with rfl | heq
      · revert h2; decide
      · exact heq h1
    rw [parseShort, if_neg nt, lookupShort_iff.2 ⟨hf, rfl⟩]
    simp only
    rw [if_neg h1, if_neg (by rw [isSwitch_false.2 hv]; simp), if_pos hne, set_value p hv]
    rfl
  | @equals f v hf hv hne =>
    intro p
    rw [parseShort, if_neg nt, lookupShort_iff.2 ⟨hf, rfl⟩]
    simp only
    rw [if_pos ⟨rfl, by cases v with
      | nil => exact absurd rfl hne
      | cons _ _ => simp⟩, List.drop_one, List.tail_cons, set_value p hv]
    rfl
  | @set f v b hf hv hb =>
    intro p
    have hne : v ≠ [] := by
      rintro rfl
      revert hb
      cases b <;> decide
    rw [parseShort, if_neg nt, lookupShort_iff.2 ⟨hf, rfl⟩]
    simp only
    rw [if_pos ⟨rfl, by cases v with
      | nil => exact absurd rfl hne
      | cons _ _ => simp⟩, List.drop_one, List.tail_cons, set_switch p hv, parseBool_iff.2 hb]
    rfl
  | @next f hf hv =>
    intro p
    rw [parseShort, if_neg nt, lookupShort_iff.2 ⟨hf, rfl⟩]
    simp only
    rw [if_neg (by simp), if_neg (by rw [isSwitch_false.2 hv]; simp), if_neg (by simp)]
    rfl
  | @on f rest ps nx hf hv h ih =>
    intro p
    have hh := h.head.1
    rw [parseShort, if_neg nt, lookupShort_iff.2 ⟨hf, rfl⟩]
    simp only
    rw [if_neg (by tauto), if_pos (isSwitch_iff.2 hv), ih]
    rfl

theorem parseShort_only {fs : List Flag} (b : Str) : ∀ {p q : Parsed} {nx : Option Flag}, parseShort fs b p = some (q, nx) → ∃ ps, Bundle fs b ps nx := by
  induction b with
  | nil => intro p q nx h; cases h; exact ⟨[], .done⟩
  | cons c rest ih =>
    intro p q nx h
    rw [parseShort] at h
    split at h
    · rename_i ht
      cases h
      obtain ⟨r, hr⟩ := ht
      rw [← hr]
      exact ⟨[], .ignored r⟩
    · cases hl : lookupShort fs c with
      | none => rw [hl] at h; cases h
      | some f =>
        rw [hl] at h
        simp only at h
        obtain ⟨hf, rfl⟩ := lookupShort_iff.1 hl
        split at h
        · rename_i hc
          obtain ⟨h1, h2⟩ := hc
          cases rest with
          | nil => simp at h1
          | cons d v =>
            simp only [List.head?_cons, Option.some.injEq] at h1
            subst h1
            simp only [List.drop_one, List.tail_cons, Option.map_eq_some_iff, Prod.mk.injEq] at h
            obtain ⟨q', hq, rfl, rfl⟩ := h
            rcases (set_iff p q').1 hq with ⟨hv, _⟩ | ⟨hv, b, hb, _⟩
            · exact ⟨_, .equals hf hv (by rintro rfl; simp at h2)⟩
            · exact ⟨_, .set hf hv hb⟩
        · rename_i hc
          split at h
          · rename_i hs
            obtain ⟨ps, hps⟩ := ih h
            exact ⟨_, .on hf (isSwitch_iff.1 hs) hps⟩
          · rename_i hs
            have hv : ValueFlag f := isSwitch_false.1 (by simpa using hs)
            split at h
            · rename_i hne
              simp only [Option.map_eq_some_iff, Prod.mk.injEq] at h
              obtain ⟨q', _, rfl, rfl⟩ := h
              refine ⟨_, .attached hf hv hne ?_⟩
              by_cases h1 : rest.head? = some '='
              · left
                cases rest with
                | nil => exact absurd rfl hne
                | cons d v =>
                  simp only [List.head?_cons, Option.some.injEq] at h1
                  subst h1
                  cases v with
                  | nil => decide
                  | cons x y => exact absurd ⟨rfl, by simp⟩ hc
              · exact Or.inr h1
            · rename_i hne
              simp only [ne_eq, Decidable.not_not] at hne
              subst hne
              cases h
              exact ⟨_, .next hf hv⟩

theorem parseShort_iff {fs : List Flag} {b : Str} {p q : Parsed} {nx : Option Flag} :
    parseShort fs b p = some (q, nx) ↔ ∃ ps, Bundle fs b ps nx ∧ q = p.after ps := by
  constructor
  · intro h
    obtain ⟨ps, hps⟩ := parseShort_only b h
    refine ⟨ps, hps, ?_⟩
    rw [parseShort_of hps p] at h
    cases h
    rfl
  · rintro ⟨ps, hps, rfl⟩
    exact parseShort_of hps p

/-! ### Flags with names -/

theorem long_plain {f : Flag} : '=' ∉ f.long ∧ f.long.head? ≠ some '-' ∧ f.long.head? ≠ some '=' ∧ f.long ≠ [] := by cases f <;> decide

theorem takeWhile_ne {n : Str} (h : '=' ∉ n) (v : Str) : (n ++ '=' :: v).takeWhile (· ≠ '=') = n ∧ (n ++ '=' :: v).dropWhile (· ≠ '=') = '=' :: v := by
  induction n with
  | nil => simp
  | cons c n ih =>
    have hc : c ≠ '=' := fun e => h (by simp [e])
    obtain ⟨a, b⟩ := ih fun e => h (by simp [e])
    simp only [List.cons_append, List.takeWhile_cons, List.dropWhile_cons, hc, ne_eq, not_false_eq_true, decide_true, if_true]
    exact ⟨congrArg (c :: ·) a, b⟩

theorem takeWhile_whole {n : Str} (h : '=' ∉ n) : n.takeWhile (· ≠ '=') = n := by
  apply List.takeWhile_eq_self_iff.2
  intro c hc
  simp only [decide_eq_true_eq]
  rintro rfl
  exact h hc

theorem parseLong_equals {fs : List Flag} {f : Flag} (hf : f ∈ fs) (v : Str) (p : Parsed) :
    parseLong fs (f.long ++ '=' :: v) p = (p.set f v).map fun p => (p, none) := by
  obtain ⟨h1, h2, h3, h4⟩ := @long_plain f
  have hh : (f.long ++ '=' :: v).head? = f.long.head? := by
    cases hl : f.long with
    | nil => exact absurd hl h4
    | cons a b => rfl
  rw [parseLong, hh, if_neg (by tauto), (takeWhile_ne h1 v).1, lookupLong_iff.2 ⟨hf, rfl⟩]
  simp only
  rw [if_pos (by simp), (takeWhile_ne h1 v).2]
  rfl

theorem parseLong_plain {fs : List Flag} {f : Flag} (hf : f ∈ fs) (p : Parsed) :
    parseLong fs f.long p = if f.isSwitch then some (p.switch f true, none) else some (p, some f) := by
  obtain ⟨h1, h2, h3, h4⟩ := @long_plain f
  rw [parseLong, if_neg (by tauto), takeWhile_whole h1, lookupLong_iff.2 ⟨hf, rfl⟩]
  simp only
  rw [if_neg (by simpa using h1)]

theorem parseLong_only {fs : List Flag} {n : Str} {p q : Parsed} {nx : Option Flag} (h : parseLong fs n p = some (q, nx)) :
    (∃ f ∈ fs, n = f.long) ∨ ∃ f ∈ fs, ∃ v, n = f.long ++ '=' :: v := by
  rw [parseLong] at h
  split at h
  · cases h
  · cases hl : lookupLong fs (n.takeWhile (· ≠ '=')) with
    | none => rw [hl] at h; cases h
    | some f =>
      obtain ⟨hf, hn⟩ := lookupLong_iff.1 hl
      by_cases hc : '=' ∈ n
      · right
        refine ⟨f, hf, ((n.dropWhile (· ≠ '=')).drop 1), ?_⟩
        have hd : n.dropWhile (· ≠ '=') = '=' :: (n.dropWhile (· ≠ '=')).drop 1 := by
          have := List.takeWhile_append_dropWhile (p := (· ≠ '=')) (l := n)
          cases hd : n.dropWhile (· ≠ '=') with
          | nil =>
            rw [hd, List.append_nil] at this
            rw [← this] at hc
            have := List.mem_takeWhile_imp hc
            simp at this
          | cons a b =>
            have ha := List.head?_dropWhile_not (· ≠ '=') n
            rw [hd] at ha
            simp only [List.head?_cons] at ha
            have : a = '=' := by simpa using ha
            rw [this]; rfl
        rw [hn, ← hd, List.takeWhile_append_dropWhile]
      · left
        exact ⟨f, hf, by rw [hn, takeWhile_whole hc]⟩

/-! ### All arguments -/

theorem dashes : str "--" = ['-', '-'] := by decide

theorem long_not_dash {n : Str} (h : n ≠ []) : str "--" ++ n ≠ str "--" := by
  intro e
  exact h (by simpa using e)

theorem parseArgs_of {fs : List Flag} {argv : List Str} {ps : List Piece} (h : Typed fs argv ps) : ∀ p : Parsed, parseArgs fs argv p = some (p.after ps) := by
  have longs : ∀ {n : Str} {l : List Str} (p : Parsed), n ≠ [] → parseArgs fs ((str "--" ++ n) :: l) p =
      match parseLong fs n p with
      | none => none
      | some (p, none) => parseArgs fs l p
      | some (p, some f) =>
        match l with
        | [] => none
        | v :: rest =>
          match p.set f v with
          | none => none
          | some p => parseArgs fs rest p := by
    intro n l p hn
    have h1 : (str "--" ++ n).head? = some '-' := by rw [dashes]; rfl
    have h2 : (str "--" ++ n).length ≠ 1 := by rw [dashes]; simp
    rw [parseArgs.eq_def]
    simp only
    rw [if_neg (by tauto), if_neg (long_not_dash hn), if_pos (by rw [dashes]; rfl), show (str "--" ++ n).drop 2 = n by rw [dashes]; rfl]
    rfl
  have shorts : ∀ {b : Str} {l : List Str} (p : Parsed), b ≠ [] → b.head? ≠ some '-' → parseArgs fs (('-' :: b) :: l) p =
      match parseShort fs b p with
      | none => none
      | some (p, none) => parseArgs fs l p
      | some (p, some f) =>
        match l with
        | [] => none
        | v :: rest =>
          match p.set f v with
          | none => none
          | some p => parseArgs fs rest p := by
    intro b l p hb hd
    have h2 : ('-' :: b).length ≠ 1 := by
      cases b with
      | nil => exact absurd rfl hb
      | cons _ _ => simp
    have h3 : ('-' :: b).take 2 ≠ str "--" := by
      rw [dashes]
      cases b with
      | nil => exact absurd rfl hb
      | cons c _ =>
        intro e
        simp only [List.take_succ_cons, List.take_zero, List.cons.injEq, and_true, true_and] at e
        subst e
        exact hd rfl
    have h4 : ('-' :: b) ≠ str "--" := fun e => h3 (by rw [e]; decide)
    rw [parseArgs.eq_def]
    simp only
    rw [if_neg (by simpa using h2), if_neg h4, if_neg h3]
    rfl
  induction h with
  | nil => intro p; rfl
  | @word w l ps hw h ih =>
    intro p
    rw [parseArgs, if_pos (by
      rcases hw with hw | rfl
      · exact Or.inl hw
      · exact Or.inr (by decide)), ih]
    rfl
  | rest l =>
    intro p
    rw [parseArgs, if_neg (by rw [dashes]; simp), if_pos rfl, after_words]
  | @longEquals f v l ps hf hv h ih =>
    intro p
    rw [show str "--" ++ f.long ++ str "=" ++ v = str "--" ++ (f.long ++ '=' :: v) by rw [show str "=" = ['='] by decide]; simp,
      longs p (by simp), parseLong_equals hf, set_value p hv]
    simp only [Option.map_some]
    rw [ih]
    rfl
  | @longNext f v l ps hf hv h ih =>
    intro p
    rw [longs p long_plain.2.2.2, parseLong_plain hf, if_neg (by rw [isSwitch_false.2 hv]; simp)]
    simp only
    rw [set_value p hv]
    simp only
    rw [ih]
    rfl
  | @longOn f l ps hf hv h ih =>
    intro p
    rw [longs p long_plain.2.2.2, parseLong_plain hf, if_pos (isSwitch_iff.2 hv)]
    simp only
    rw [ih]
    rfl
  | @longSet f v b l ps hf hv hb h ih =>
    intro p
    rw [show str "--" ++ f.long ++ str "=" ++ v = str "--" ++ (f.long ++ '=' :: v) by rw [show str "=" = ['='] by decide]; simp,
      longs p (by simp), parseLong_equals hf, set_switch p hv, parseBool_iff.2 hb]
    simp only [Option.map_some]
    rw [ih]
    rfl
  | @short b qs l ps hne hb h ih =>
    intro p
    rw [shorts p hne hb.head.2, parseShort_of hb]
    simp only
    rw [ih, after_append]
  | @shortNext b qs f v l ps hb h ih =>
    intro p
    have hne : b ≠ [] := by rintro rfl; cases hb
    have hv : ValueFlag f := by
      have : ∀ {b qs nx}, Bundle fs b qs nx → ∀ f, nx = some f → ValueFlag f := by
        intro b qs nx h
        induction h with
        | next hf hv => rintro _ ⟨⟩; exact hv
        | on hf hv h ih => exact ih
        | _ => rintro f ⟨⟩
      exact this hb f rfl
    rw [shorts p hne hb.head.2, parseShort_of hb]
    simp only
    rw [set_value _ hv]
    simp only
    rw [ih, after_append]
    rfl

theorem Bundle.next_value {fs : List Flag} {b : Str} {qs : List Piece} {nx : Option Flag} (h : Bundle fs b qs nx) : ∀ f, nx = some f → ValueFlag f := by
  induction h with
  | next hf hv => rintro _ ⟨⟩; exact hv
  | on hf hv h ih => exact ih
  | _ => rintro f ⟨⟩

theorem parseArgs_only {fs : List Flag} : ∀ (n : Nat) (argv : List Str), argv.length ≤ n → ∀ {p q : Parsed}, parseArgs fs argv p = some q → ∃ ps, Typed fs argv ps := by
  intro n
  induction n with
  | zero =>
    intro argv hl p q h
    rw [List.length_eq_zero_iff.1 (Nat.le_zero.1 hl)]
    exact ⟨[], .nil⟩
  | succ n ih =>
    intro argv hl p q h
    cases argv with
    | nil => exact ⟨[], .nil⟩
    | cons s args =>
      have hla : args.length ≤ n := by simpa using hl
      rw [parseArgs.eq_def] at h
      simp only at h
      split at h
      · rename_i hc
        obtain ⟨ps, hps⟩ := ih args hla h
        refine ⟨_, .word (w := s) ?_ hps⟩
        by_cases h1 : s.head? = some '-'
        · right
          rcases hc with hc | hc
          · exact absurd h1 hc
          · obtain ⟨c, rfl⟩ := List.length_eq_one_iff.1 hc
            simp only [List.head?_cons, Option.some.injEq] at h1
            subst h1
            decide
        · exact Or.inl h1
      · rename_i hc
        push Not at hc
        split at h
        · rename_i hd
          rw [hd]
          exact ⟨_, .rest args⟩
        · rename_i hd
          split at h
          · cases h
          · rename_i p1 hp1
            obtain ⟨ps, hps⟩ := ih args hla h
            split at hp1
            · rename_i ht
              have hs : s = str "--" ++ s.drop 2 := by rw [← ht, List.take_append_drop]
              rcases parseLong_only hp1 with ⟨f, hf, hn⟩ | ⟨f, hf, v, hn⟩
              · rw [hn, parseLong_plain hf] at hp1
                split at hp1
                · rename_i hsw
                  rw [hs, hn]
                  exact ⟨_, .longOn hf (isSwitch_iff.1 hsw) hps⟩
                · cases hp1
              · rw [hn, parseLong_equals hf] at hp1
                simp only [Option.map_eq_some_iff, Prod.mk.injEq] at hp1
                obtain ⟨p2, hp2, rfl, _⟩ := hp1
                have hs' : s = str "--" ++ f.long ++ str "=" ++ v := by
                  rw [hs, hn, show str "=" = ['='] by decide]; simp
                rw [hs']
                rcases (set_iff _ _).1 hp2 with ⟨hv, _⟩ | ⟨hv, b, hb, _⟩
                · exact ⟨_, .longEquals hf hv hps⟩
                · exact ⟨_, .longSet hf hv hb hps⟩
            · cases s with
              | nil => exact absurd hc.1 (by simp)
              | cons c b =>
                have hc1 : c = '-' := by simpa using hc.1
                subst hc1
                obtain ⟨qs, hqs, _⟩ := parseShort_iff.1 hp1
                exact ⟨_, .short (by rintro rfl; exact hc.2 rfl) hqs hps⟩
          · rename_i p1 f hp1
            cases args with
            | nil => cases h
            | cons v rest =>
              simp only at h
              cases hset : p1.set f v with
              | none => rw [hset] at h; cases h
              | some p2 =>
                rw [hset] at h
                simp only at h
                obtain ⟨ps, hps⟩ := ih rest (by simp at hla; omega) h
                split at hp1
                · rename_i ht
                  have hs : s = str "--" ++ s.drop 2 := by rw [← ht, List.take_append_drop]
                  rcases parseLong_only hp1 with ⟨g, hg, hn⟩ | ⟨g, hg, w, hn⟩
                  · rw [hn, parseLong_plain hg] at hp1
                    split at hp1
                    · cases hp1
                    · rename_i hsw
                      cases hp1
                      rw [hs, hn]
                      exact ⟨_, .longNext hg (isSwitch_false.1 (by simpa using hsw)) hps⟩
                  · rw [hn, parseLong_equals hg] at hp1
                    simp only [Option.map_eq_some_iff, Prod.mk.injEq] at hp1
                    obtain ⟨_, _, _, h0⟩ := hp1
                    cases h0
                · cases s with
                  | nil => exact absurd hc.1 (by simp)
                  | cons c b =>
                    have hc1 : c = '-' := by simpa using hc.1
                    subst hc1
                    obtain ⟨qs, hqs, _⟩ := parseShort_iff.1 hp1
                    exact ⟨_, .shortNext hqs hps⟩

/-- Exactly the arguments that are written as flags and words are accepted, and mean what these mean. -/
theorem parseArgs_iff {fs : List Flag} {argv : List Str} {q : Parsed} :
    parseArgs fs argv {} = some q ↔ ∃ ps, Typed fs argv ps ∧ q = ⟨optionsOf ps, lastSwitch .help ps, wordsOf ps⟩ := by
  constructor
  · intro h
    obtain ⟨ps, hps⟩ := parseArgs_only _ argv (Nat.le_refl _) h
    refine ⟨ps, hps, ?_⟩
    rw [parseArgs_of hps, after_meaning] at h
    cases h
    rfl
  · rintro ⟨ps, hps, rfl⟩
    rw [parseArgs_of hps, after_meaning]

theorem parseArgs_none {fs : List Flag} {argv : List Str} : parseArgs fs argv {} = none ↔ ∀ ps, ¬ Typed fs argv ps := by
  constructor
  · intro h ps hps
    rw [parseArgs_of hps] at h
    cases h
  · intro h
    cases hp : parseArgs fs argv {} with
    | none => rfl
    | some q =>
      obtain ⟨ps, hps⟩ := parseArgs_only _ argv (Nat.le_refl _) hp
      exact absurd hps (h ps)

/-! ### The name of the command -/

theorem rootLong {n : Str} : ((lookupLong rootFlags n).any Flag.isSwitch) = true ↔ n = str "current" := by
  constructor
  · intro h
    cases hl : lookupLong rootFlags n with
    | none => rw [hl] at h; cases h
    | some f =>
      rw [hl] at h
      obtain ⟨hf, rfl⟩ := lookupLong_iff.1 hl
      revert h hf
      cases f <;> decide
  · rintro rfl
    decide

theorem rootShort {c : Char} : ((lookupShort rootFlags c).any Flag.isSwitch) = true ↔ c = 'c' := by
  constructor
  · intro h
    cases hl : lookupShort rootFlags c with
    | none => rw [hl] at h; cases h
    | some f =>
      rw [hl] at h
      obtain ⟨hf, rfl⟩ := lookupShort_iff.1 hl
      revert h hf
      cases f <;> decide
  · rintro rfl
    decide

theorem takesNext_iff {s : Str} (hd : s ≠ str "--") : takesNext rootFlags s = true ↔ SeemsToTake s := by
  unfold takesNext SeemsToTake
  simp only [Bool.and_eq_true, Bool.not_eq_true', Bool.or_eq_true, decide_eq_true_eq]
  have r1 : ∀ n, ((lookupLong rootFlags n).any Flag.isSwitch) = false ↔ n ≠ str "current" := fun n => by rw [ne_eq, ← rootLong, Bool.not_eq_true]
  have r2 : ∀ c, ((lookupShort rootFlags c).any Flag.isSwitch) = false ↔ c ≠ 'c' := fun n => by rw [ne_eq, ← rootShort, Bool.not_eq_true]
  rw [r1, r2]
  constructor
  · rintro ⟨h1, ⟨h2, h3⟩ | ⟨⟨⟨h2, h3⟩, h4⟩, h5⟩⟩
    · right
      refine ⟨s.drop 2, by rw [← h2, List.take_append_drop], ?_, ?_, h3⟩
      · intro e
        apply hd
        rw [← h2]
        have := List.drop_eq_nil_iff.1 e
        rw [List.take_of_length_le this]
      · intro e
        have := List.mem_of_mem_drop e
        simp at h1
        exact h1 this
    · left
      match s, h3 with
      | [a, c], _ =>
        simp only [List.head?_cons, Option.some.injEq] at h2
        subst h2
        simp only [List.getD_cons_succ, List.getD_cons_zero] at h4 h5
        refine ⟨c, rfl, ?_, ?_, h5, h4⟩
        · rintro rfl; exact hd (by decide)
        · rintro rfl; simp at h1
  · rintro (⟨c, rfl, h1, h2, h3, h4⟩ | ⟨n, rfl, h1, h2, h3⟩)
    · refine ⟨by simp [Ne.symm h2], Or.inr ⟨⟨⟨rfl, rfl⟩, by simpa using h4⟩, by simpa using h3⟩⟩
    · refine ⟨by rw [dashes]; simpa using h2, Or.inl ⟨by rw [dashes]; rfl, by rw [dashes]; simpa using h3⟩⟩

theorem stripFlags_skip {pre : List Str} (h : Skipped pre) (l : List Str) (hl : l ≠ []) : stripFlags rootFlags (pre ++ l) = stripFlags rootFlags l := by
  induction h with
  | nil => rfl
  | @alone s l' h hd ht _ ih =>
    rw [List.cons_append, stripFlags.eq_def]
    simp only
    rw [if_neg hd, if_neg (by rw [takesNext_iff hd]; exact ht), if_neg (by tauto), ih]
  | @pair s v l' ht _ ih =>
    have hd : s ≠ str "--" := by
      rintro rfl
      rcases ht with ⟨c, h1, h2, _⟩ | ⟨n, h1, h2, _⟩
      · rw [dashes] at h1; simp at h1; exact h2 h1.symm
      · exact long_not_dash h2 h1.symm
    rw [List.cons_append, List.cons_append, stripFlags.eq_def]
    simp only
    rw [if_neg hd, if_pos ((takesNext_iff hd).2 ht)]
    cases hl' : l' ++ l with
    | nil => simp at hl'; exact absurd hl'.2 hl
    | cons a b => rw [hl'] at ih; exact ih

theorem stripFlags_only : ∀ (n : Nat) (argv : List Str), argv.length ≤ n → ∀ {w : Str} {ws : List Str}, stripFlags rootFlags argv = w :: ws → NamesCommand argv w := by
  intro n
  induction n with
  | zero =>
    intro argv hl w ws h
    rw [List.length_eq_zero_iff.1 (Nat.le_zero.1 hl)] at h
    cases h
  | succ n ih =>
    intro argv hl w ws h
    cases argv with
    | nil => cases h
    | cons s args =>
      have hla : args.length ≤ n := by simpa using hl
      rw [stripFlags.eq_def] at h
      simp only at h
      split at h
      · cases h
      · rename_i hd
        split at h
        · rename_i ht
          have ht := (takesNext_iff hd).1 ht
          split at h
          · rename_i v a rest
            obtain ⟨pre, post, h1, h2, h3⟩ := ih (a :: rest) (by simp at hla ⊢; omega) h
            exact ⟨s :: v :: pre, post, by rw [h1]; rfl, .pair ht h2, h3⟩
          · cases h
        · rename_i ht
          have ht : ¬ SeemsToTake s := fun hc => ht ((takesNext_iff hd).2 hc)
          split at h
          · rename_i ho
            cases h
            exact ⟨[], args, rfl, .nil, ho⟩
          · rename_i ho
            obtain ⟨pre, post, h1, h2, h3⟩ := ih args hla h
            refine ⟨s :: pre, post, by rw [h1]; rfl, .alone ?_ hd ht h2, h3⟩
            by_cases h0 : s = []
            · exact Or.inl h0
            · exact Or.inr (by_contra fun hc => ho ⟨h0, hc⟩)

theorem named_iff {argv : List Str} {w : Str} : NamesCommand argv w ↔ ∃ ws, stripFlags rootFlags argv = w :: ws := by
  constructor
  · rintro ⟨pre, post, rfl, h1, h2⟩
    rw [stripFlags_skip h1 _ (by simp)]
    have hd : w ≠ str "--" := by rintro rfl; exact h2.2 (by rw [dashes]; rfl)
    have ht : ¬ SeemsToTake w := by
      rintro (⟨c, rfl, _⟩ | ⟨n, rfl, _⟩)
      · exact h2.2 rfl
      · exact h2.2 (by rw [dashes]; rfl)
    rw [stripFlags.eq_def]
    simp only
    rw [if_neg hd, if_neg (by rw [takesNext_iff hd]; exact ht), if_pos (show w ≠ [] ∧ w.head? ≠ some '-' from h2)]
    exact ⟨_, rfl⟩
  · rintro ⟨ws, h⟩
    exact stripFlags_only _ _ (Nat.le_refl _) h

theorem named_unique {argv : List Str} {w w' : Str} (h : NamesCommand argv w) (h' : NamesCommand argv w') : w = w' := by
  obtain ⟨ws, h⟩ := named_iff.1 h
  obtain ⟨ws', h'⟩ := named_iff.1 h'
  rw [h] at h'
  exact (List.cons.inj h').1

theorem unnamed_iff {argv : List Str} : (∀ w, ¬ NamesCommand argv w) ↔ stripFlags rootFlags argv = [] := by
  constructor
  · intro h
    cases hs : stripFlags rootFlags argv with
    | nil => rfl
    | cons w ws => exact absurd (named_iff.2 ⟨ws, hs⟩) (h w)
  · intro h w hn
    obtain ⟨ws, hs⟩ := named_iff.1 hn
    rw [h] at hs
    cases hs

end Gledger
