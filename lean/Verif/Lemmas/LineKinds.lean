/-
Every line is of exactly one kind, and the lexer's items for it.
-/
import Verif.Spec.Lines
import Verif.Lemmas.LexedItems
import Verif.Props.Malformed

namespace Gledger

set_option maxRecDepth 100000

/-! ### Splitting -/

/-- Every text is a field and a trailer. -/
theorem fieldLoop_split (cs : Str) : ∀ acc : Str, ';' ∉ acc → '#' ∉ acc → '\t' ∉ acc → ¬ [' ', ' '] <:+: acc →
    (acc.getLast? = some ' ' → cs.head? ≠ some ' ') → ∃ s t, acc ++ cs = s ++ t ∧ FieldText s ∧ Trailer t := by
  induction cs with
  | nil =>
    intro acc h1 h2 h3 h4 _
    by_cases hl : acc.getLast? = some ' '
    · obtain ⟨xs, rfl⟩ := List.getLast?_eq_some_iff.1 hl
      have h5 := trim_oneBlank h3 h4
      rw [if_pos hl, List.dropLast_concat] at h5
      exact ⟨xs, [' '], by simp, ⟨fun h => h1 (by simp [h]), fun h => h2 (by simp [h]), h5⟩, Or.inr (Or.inl rfl)⟩
    · exact ⟨acc, [], rfl, ⟨h1, h2, h3, h4, hl⟩, Or.inl rfl⟩
  | cons c cs ih =>
    intro acc h1 h2 h3 h4 h5
    by_cases hc : c = ';' ∨ c = '#' ∨ c = '\t'
    · by_cases hl : acc.getLast? = some ' '
      · obtain ⟨xs, rfl⟩ := List.getLast?_eq_some_iff.1 hl
        have h6 := trim_oneBlank h3 h4
        rw [if_pos hl, List.dropLast_concat] at h6
        exact ⟨xs, ' ' :: c :: cs, by simp, ⟨fun h => h1 (by simp [h]), fun h => h2 (by simp [h]), h6⟩,
          Or.inr (Or.inr (Or.inr (Or.inr ⟨rfl, c, by simp, hc⟩)))⟩
      · exact ⟨acc, c :: cs, rfl, ⟨h1, h2, h3, h4, hl⟩, Or.inr (Or.inr (Or.inr (Or.inl ⟨c, by simp, hc⟩)))⟩
    · by_cases hb : c = ' ' ∧ cs.head? = some ' '
      · obtain ⟨rfl, hb⟩ := hb
        have hl : acc.getLast? ≠ some ' ' := fun hl => h5 hl rfl
        refine ⟨acc, ' ' :: cs, rfl, ⟨h1, h2, h3, h4, hl⟩, Or.inr (Or.inr (Or.inl ?_))⟩
        cases cs with
        | nil => cases hb
        | cons x xs => simp only [List.head?_cons, Option.some.injEq] at hb; subst hb; rfl
      · push Not at hc
        have h6 : ¬ (c = ' ' ∧ acc.getLast? = some ' ') := fun ⟨h, hl⟩ => h5 hl (by rw [h]; rfl)
        obtain ⟨s, t, e, f1, f2⟩ := ih (acc ++ [c]) (by simp [h1, hc.1.symm]) (by simp [h2, hc.2.1.symm]) (by simp [h3, hc.2.2.symm])
          (infix_snoc_blank h4 h6) (by
            intro hl hh
            simp only [List.getLast?_concat, Option.some.injEq] at hl
            exact hb ⟨hl, hh⟩)
        exact ⟨s, t, by rw [← e]; simp, f1, f2⟩

theorem field_split (cs : Str) : ∃ s t, cs = s ++ t ∧ FieldText s ∧ Trailer t := by
  obtain ⟨s, t, e, h⟩ := fieldLoop_split cs [] (by simp) (by simp) (by simp) (by simp) (by simp)
  exact ⟨s, t, by simpa using e, h⟩

/-- What may follow an account name. -/
def AccountEnd (t : Str) : Prop := t = [] ∨ t = [' '] ∨ t.head? = some '\t' ∨ t.take 2 = [' ', ' '] ∨ t.take 2 = [' ', '\t']

/-- Every text is an account name and what follows it. -/
theorem account_split (cs : Str) : ∀ acc : Str, '\t' ∉ acc → ¬ [' ', ' '] <:+: acc →
    ∃ s t, acc ++ cs = s ++ t ∧ OneBlank s ∧ AccountEnd t := by
  induction cs with
  | nil =>
    intro acc h3 h4
    by_cases hl : acc.getLast? = some ' '
    · obtain ⟨xs, rfl⟩ := List.getLast?_eq_some_iff.1 hl
      have h5 := trim_oneBlank h3 h4
      rw [if_pos hl, List.dropLast_concat] at h5
      exact ⟨xs, [' '], by simp, h5, Or.inr (Or.inl rfl)⟩
    · exact ⟨acc, [], rfl, ⟨h3, h4, hl⟩, Or.inl rfl⟩
  | cons c cs ih =>
    intro acc h3 h4
    by_cases hl : acc.getLast? = some ' '
    · by_cases hc : c = ' ' ∨ c = '\t'
      · obtain ⟨xs, rfl⟩ := List.getLast?_eq_some_iff.1 hl
        have h5 := trim_oneBlank h3 h4
        rw [if_pos hl, List.dropLast_concat] at h5
        refine ⟨xs, ' ' :: c :: cs, by simp, h5, ?_⟩
        rcases hc with rfl | rfl
        · exact Or.inr (Or.inr (Or.inr (Or.inl rfl)))
        · exact Or.inr (Or.inr (Or.inr (Or.inr rfl)))
      · push Not at hc
        obtain ⟨s, t, e, f⟩ := ih (acc ++ [c]) (by simp [h3, hc.2.symm]) (infix_snoc_blank h4 (fun h => hc.1 h.1))
        exact ⟨s, t, by rw [← e]; simp, f⟩
    · by_cases hc : c = '\t'
      · subst hc
        exact ⟨acc, '\t' :: cs, rfl, ⟨h3, h4, hl⟩, Or.inr (Or.inr (Or.inl rfl))⟩
      · obtain ⟨s, t, e, f⟩ := ih (acc ++ [c]) (by simp [h3, Ne.symm hc]) (infix_snoc_blank h4 (fun h => hl h.2))
        exact ⟨s, t, by rw [← e]; simp, f⟩

theorem white_split (cs : Str) : ∃ ws s, cs = ws ++ s ∧ White ws ∧ StartsInk s :=
  ⟨cs.takeWhile isSpace, cs.dropWhile isSpace, (List.takeWhile_append_dropWhile).symm,
    fun c hc => List.all_eq_true.1 List.all_takeWhile c hc, dropWhile_ink cs⟩

theorem blanks_split (cs : Str) : (∀ c ∈ cs, c = ' ') ∨ ∃ n c w, cs = List.replicate n ' ' ++ c :: w ∧ c ≠ ' ' := by
  induction cs with
  | nil => left; simp
  | cons c cs ih =>
    by_cases hc : c = ' '
    · subst hc
      rcases ih with h | ⟨n, d, w, rfl, h⟩
      · left; simpa using h
      · exact Or.inr ⟨n + 1, d, w, by rw [List.replicate_succ]; rfl, h⟩
    · exact Or.inr ⟨0, c, cs, rfl, hc⟩

theorem commentText_exists (w : Str) : ∃ x, CommentText w x := by
  rcases blanks_split w with h | ⟨n, c, v, rfl, h⟩
  · exact ⟨w, Or.inr ⟨rfl, h⟩⟩
  · exact ⟨c :: v, Or.inl ⟨n, rfl, by simp, by simpa using h⟩⟩

theorem trimSpaceStart_all {w : Str} (h : ∀ c ∈ w, c = ' ') : trimSpaceStart w = w := by
  unfold trimSpaceStart
  rw [firstNonBlank_blank w 0 h]
  simp

theorem commentText_trim {w x : Str} (h : CommentText w x) : trimSpaceStart w = x := by
  rcases h with ⟨n, rfl, h1, h2⟩ | ⟨rfl, h⟩
  · exact trimSpaceStart_blanks h2 (fun h => absurd h h1)
  · exact trimSpaceStart_all h

/-- What follows a field, taken as the end of a header. -/
theorem headerRest_exists {t : Str} (h : Trailer t) : ∃ note, HeaderRest t note := by
  have key : ∀ e r : Str, (∀ n, PayeeStop e n) → ∃ note, HeaderRest (e ++ r) note := by
    intro e r he
    rcases blanks_split r with hr | ⟨n, c, w, rfl, hc⟩
    · rw [all_blank hr]
      cases r.length with
      | zero => exact ⟨[], by simpa using HeaderRest.ended (he 0)⟩
      | succ n => exact ⟨_, .blanks (he _)⟩
    · obtain ⟨x, hx⟩ := commentText_exists w
      exact ⟨x, .note (he n) hc hx⟩
  rcases h with rfl | rfl | h | ⟨c, hc, h⟩ | ⟨h1, c, hc, h⟩
  · exact ⟨_, .none⟩
  · exact ⟨_, .blank⟩
  · match t, h with
    | [], h => simp at h
    | [_], h => simp at h
    | a :: b :: r, h =>
      simp only [List.take_succ_cons, List.take_zero, List.cons.injEq, and_true] at h
      obtain ⟨rfl, rfl⟩ := h
      rcases blanks_split r with hr | ⟨n, c, w, rfl, hc⟩
      · rw [all_blank hr, show ' ' :: ' ' :: List.replicate r.length ' ' = [' '] ++ List.replicate (r.length + 1) ' ' by rw [List.replicate_succ]; rfl]
        exact ⟨_, .blanks (Or.inr ⟨rfl, by omega⟩)⟩
      · obtain ⟨x, hx⟩ := commentText_exists w
        rw [show ' ' :: ' ' :: (List.replicate n ' ' ++ c :: w) = [' '] ++ (List.replicate (n + 1) ' ' ++ c :: w) by rw [List.replicate_succ]; rfl]
        exact ⟨x, .note (Or.inr ⟨rfl, by omega⟩) hc hx⟩
  · cases t with
    | nil => cases hc
    | cons a r =>
      simp only [List.head?_cons, Option.mem_def, Option.some.injEq] at hc
      subst hc
      exact key [a] r fun n => Or.inl ⟨a, h, Or.inl rfl⟩
  · match t, h1, hc with
    | [], h1, _ => cases h1
    | [_], _, hc => cases hc
    | a :: b :: r, h1, hc =>
      simp only [List.head?_cons, Option.some.injEq] at h1
      simp only [List.tail_cons, List.head?_cons, Option.mem_def, Option.some.injEq] at hc
      subst h1 hc
      exact key [' ', b] r fun n => Or.inl ⟨b, h, Or.inr rfl⟩

/-! ### Every line is of some kind -/

theorem word_split (cs : Str) : ∃ w rest, cs = w ++ rest ∧ ' ' ∉ w ∧ (rest = [] ∨ rest.head? = some ' ') := by
  refine ⟨cs.takeWhile (· ≠ ' '), cs.dropWhile (· ≠ ' '), (List.takeWhile_append_dropWhile).symm, ?_, ?_⟩
  · intro h
    have := List.all_eq_true.1 List.all_takeWhile _ h
    simp at this
  · cases h : cs.dropWhile (· ≠ ' ') with
    | nil => exact Or.inl rfl
    | cons x xs =>
      have := List.head?_dropWhile_not (fun c : Char => decide (c ≠ ' ')) cs
      rw [h] at this
      simp at this
      exact Or.inr (by rw [this]; rfl)

theorem amount_exists [U : Unicode] {ws account gap tail : Str} (h1 : Indent ws) (h2 : AccountText account) (h3 : AmountGap gap) (h4 : StartsInk tail) :
    ∃ a, LineIs (ws ++ (account ++ (gap ++ tail))) (.posting account (some a)) := by
  obtain ⟨com, rest, rfl, hcom, hrest⟩ : ∃ com rest, tail = com ++ rest ∧ (∀ c ∈ com, isCommodityChar c = true) ∧ ∀ c ∈ rest.head?, isCommodityChar c = false := by
    refine ⟨tail.takeWhile isCommodityChar, tail.dropWhile isCommodityChar, (List.takeWhile_append_dropWhile).symm,
      fun c hc => List.all_eq_true.1 List.all_takeWhile c hc, fun c hc => ?_⟩
    have := List.head?_dropWhile_not isCommodityChar tail
    rw [hc] at this
    simpa using this
  obtain ⟨ws2, r, rfl, hw, hr⟩ := white_split rest
  obtain ⟨num, t, rfl, hf, ht⟩ := field_split r
  refine ⟨_, .amount h1 h2 h3 hcom hw ?_ ?_ hf ht hr h4⟩
  · intro hne
    cases ws2 with
    | nil => exact absurd rfl hne
    | cons x xs =>
      have e1 := hrest x (by simp)
      have e2 := hw x (by simp)
      have e3 : ¬ U.isNumber x = true := by rw [U.number_not_space x e2]; simp
      have e4 : x ≠ '-' := by rintro rfl; revert e2; decide
      have e5 : x ≠ '+' := by rintro rfl; revert e2; decide
      simp [isCommodityChar, e3, e4, e5] at e1
      simp only [List.head?_cons, Option.some.injEq]
      tauto
  · rintro rfl c hc
    have e1 := hrest c (by simpa using hc)
    have e2 := hr c hc
    have e4 : c ≠ ' ' := by rintro rfl; revert e2; decide
    have e5 : c ≠ '\t' := by rintro rfl; revert e2; decide
    simp [isCommodityChar, e4, e5] at e1
    cases hn : U.isNumber c with
    | true => exact Or.inl rfl
    | false => rw [hn] at e1; tauto

theorem lineIs_exists [U : Unicode] (l : Str) : ∃ L, LineIs l L := by
  cases l with
  | nil => exact ⟨_, .blank⟩
  | cons c cs =>
    by_cases h1 : c = ';' ∨ c = '#'
    · exact ⟨_, .comment h1⟩
    by_cases h2 : c = 'i'
    · obtain ⟨w, rest, e, hw, hr⟩ := word_split (c :: cs)
      by_cases hi : w = str "include"
      · obtain ⟨ws, s, rfl, h3, h4⟩ := white_split rest
        obtain ⟨name, t, rfl, h5, h6⟩ := field_split s
        rw [e, hi]
        by_cases hn : name = []
        · subst hn
          refine ⟨_, .unknown (.noFile h3 ?_ ?_)⟩
          · rcases hr with hr | hr
            · have := List.append_eq_nil_iff.1 hr
              exact Or.inr ⟨this.1, by simpa using this.2⟩
            · cases ws with
              | nil =>
                simp only [List.nil_append] at hr h4
                exact absurd (h4 ' ' (by simpa using hr)) (by decide)
              | cons x xs => exact Or.inl (by simpa using hr)
          · intro x hx
            have hx4 := h4 x (by simpa using hx)
            have n1 : x ≠ ' ' := by rintro rfl; revert hx4; decide
            have n2 : x ≠ '\t' := by rintro rfl; revert hx4; decide
            simp only [List.nil_append] at hx
            cases t with
            | nil => cases hx
            | cons y ys =>
              simp only [List.head?_cons, Option.mem_def, Option.some.injEq] at hx
              subst hx
              rcases h6 with h6 | h6 | h6 | ⟨z, hz, h6⟩ | ⟨h6, _⟩
              · cases h6
              · cases h6; exact absurd rfl n1
              · cases ys with
                | nil => simp at h6
                | cons b bs => simp at h6; exact absurd h6.1 n1
              · simp only [List.head?_cons, Option.mem_def, Option.some.injEq] at hz
                subst hz
                tauto
              · simp at h6; exact absurd h6 n1
        · refine ⟨_, .inclusion h3 ?_ hn h5 (prefix_starts (List.prefix_append _ _) h4) h6⟩
          rcases hr with hr | hr
          · simp [hn] at hr
          · cases ws with
            | nil =>
              simp only [List.nil_append] at hr h4
              exact absurd (h4 ' ' (by simpa using hr)) (by decide)
            | cons x xs => simpa using hr
      · rw [e]
        refine ⟨_, .unknown (.directive ?_ hw hi hr)⟩
        cases w with
        | nil =>
          simp only [List.nil_append] at e
          rw [← e, h2] at hr
          rcases hr with hr | hr
          · cases hr
          · exact absurd hr (by simp)
        | cons x xs =>
          simp only [List.cons_append, List.cons.injEq] at e
          rw [← e.1, h2]
          rfl
    by_cases h3 : c = '~'
    · subst h3
      obtain ⟨ws, s, rfl, k1, k2⟩ := white_split cs
      by_cases hw : blankWidth ws = 0
      · exact ⟨_, .unknown (.tilde k1 hw k2)⟩
      · obtain ⟨period, t, rfl, k3, k4⟩ := field_split s
        exact ⟨_, .budget k1 (by omega) k3 k4 k2⟩
    by_cases h4 : U.isNumber c = true
    · obtain ⟨w, rest, e, hw, hr⟩ := word_split (c :: cs)
      obtain ⟨gap, s, rfl, k1, k2⟩ := white_split rest
      rw [e]
      have hd : ∃ c ∈ w.head?, U.isNumber c = true := by
        cases w with
        | nil =>
          simp only [List.nil_append] at e
          rw [← e] at hr
          have hsp : c ≠ ' ' := by
            rintro rfl
            rw [U.number_ascii _ (by decide)] at h4
            exact absurd h4 (by decide)
          rcases hr with hr | hr
          · cases hr
          · simp at hr; exact absurd hr hsp
        | cons x xs =>
          simp only [List.cons_append, List.cons.injEq] at e
          exact ⟨c, by rw [← e.1]; rfl, h4⟩
      have hgap : gap.head? = some ' ' ∨ gap = [] ∧ s = [] := by
        cases gap with
        | nil =>
          rcases hr with hr | hr
          · exact Or.inr ⟨rfl, by simpa using hr⟩
          · simp only [List.nil_append] at hr
            exact absurd (k2 ' ' hr) (by decide)
        | cons x xs =>
          rcases hr with hr | hr
          · cases hr
          · exact Or.inl (by simpa using hr)
      have none : ∀ state : TransactionState, state = .noState → s.head? ≠ some '!' → s.head? ≠ some '*' →
          ∃ L, LineIs (w ++ (gap ++ s)) L := by
        rintro _ rfl n1 n2
        obtain ⟨payee, r, rfl, k3, k4⟩ := field_split s
        obtain ⟨note, k5⟩ := headerRest_exists k4
        refine ⟨_, LineIs.header (state := .noState) (gap2 := []) hd hw k1 ?_ (by simp [White]) ?_ k3 k2 k5⟩
        · rcases hgap with h | ⟨h, h'⟩
          · exact Or.inl h
          · have := List.append_eq_nil_iff.1 h'
            exact Or.inr ⟨h, rfl, this.1, this.2⟩
        · intro _
          refine ⟨rfl, ?_, ?_⟩
          · cases payee with
            | nil => simp
            | cons x xs => simpa using n1
          · cases payee with
            | nil => simp
            | cons x xs => simpa using n2
      have marked : ∀ (state : TransactionState) (s' : Str), state ≠ .noState → s = state.mark ++ s' → s ≠ [] → ∃ L, LineIs (w ++ (gap ++ s)) L := by
        rintro state s' hne rfl hs
        obtain ⟨gap2, s'', rfl, k3, k4⟩ := white_split s'
        obtain ⟨payee, r, rfl, k5, k6⟩ := field_split s''
        obtain ⟨note, k7⟩ := headerRest_exists k6
        exact ⟨_, .header hd hw k1 (hgap.resolve_right (fun h => hs h.2) |> Or.inl) k3 (fun h => absurd h hne) k5 k4 k7⟩
      cases s with
      | nil => exact none .noState rfl (by simp) (by simp)
      | cons x xs =>
        by_cases hx : x = '!'
        · exact marked .uncleared xs (by decide) (by rw [hx]; rfl) (by simp)
        by_cases hy : x = '*'
        · exact marked .cleared xs (by decide) (by rw [hy]; rfl) (by simp)
        · exact none .noState rfl (by simpa using hx) (by simpa using hy)
    by_cases h5 : c = '\t' ∨ (c = ' ' ∧ cs.head? = some ' ')
    · obtain ⟨ws, s, e, k1, k2⟩ := white_split (c :: cs)
      have hind : Indent ws := by
        refine ⟨k1, ?_⟩
        rcases h5 with rfl | ⟨rfl, h5⟩
        · left
          cases ws with
          | nil => simp only [List.nil_append] at e; rw [← e] at k2; exact absurd (k2 '\t' rfl) (by decide)
          | cons x xs => simp only [List.cons_append, List.cons.injEq] at e; rw [e.1]; rfl
        · right
          cases cs with
          | nil => cases h5
          | cons d ds =>
            simp only [List.head?_cons, Option.some.injEq] at h5
            subst h5
            match ws, e with
            | [], e => simp only [List.nil_append] at e; rw [← e] at k2; exact absurd (k2 ' ' rfl) (by decide)
            | [x], e =>
              simp only [List.cons_append, List.nil_append, List.cons.injEq] at e
              rw [← e.2] at k2; exact absurd (k2 ' ' rfl) (by decide)
            | x :: y :: xs, e =>
              simp only [List.cons_append, List.cons.injEq] at e
              rw [← e.1, ← e.2.1]; rfl
      rw [e]
      cases s with
      | nil => exact ⟨_, .passed hind k2 (by simp)⟩
      | cons x xs =>
        by_cases hx : x = ';' ∨ x = '#'
        · obtain ⟨y, hy⟩ := commentText_exists xs
          exact ⟨_, .note hind hx hy⟩
        by_cases hl : U.isLetter x = true
        · obtain ⟨a, t, e2, k3, k4⟩ := account_split (x :: xs) [] (by simp) (by simp)
          simp only [List.nil_append] at e2
          have nsp : isSpace x = false := k2 x rfl
          have n1 : x ≠ ' ' := by rintro rfl; revert nsp; decide
          have n2 : x ≠ '\t' := by rintro rfl; revert nsp; decide
          have hacc : AccountText a := by
            refine ⟨?_, k3⟩
            cases a with
            | nil =>
              simp only [List.nil_append] at e2
              rw [← e2] at k4
              rcases k4 with k4 | k4 | k4 | k4 | k4
              · cases k4
              · simp at k4; exact absurd k4.1 n1
              · simp at k4; exact absurd k4 n2
              · cases xs with
                | nil => simp at k4
                | cons b bs => simp at k4; exact absurd k4.1 n1
              · cases xs with
                | nil => simp at k4
                | cons b bs => simp at k4; exact absurd k4.1 n1
            | cons y ys =>
              simp only [List.cons_append, List.cons.injEq] at e2
              exact ⟨x, by rw [← e2.1]; rfl, hl⟩
          rw [e2]
          by_cases ht : t = [] ∨ t = [' ']
          · exact ⟨_, .posting hind hacc ht⟩
          · push Not at ht
            have k5 : t.head? = some '\t' ∨ t.take 2 = [' ', ' '] ∨ t.take 2 = [' ', '\t'] := by
              unfold AccountEnd at k4; tauto
            obtain ⟨gap, tail, rfl, k6, k7⟩ := white_split t
            have hgap : AmountGap gap := by
              refine ⟨k6, ?_⟩
              match gap, k6 with
              | [], _ =>
                simp only [List.nil_append] at k5
                cases tail with
                | nil => simp at k5
                | cons b bs =>
                  have := k7 b rfl
                  rcases k5 with k5 | k5 | k5
                  · simp at k5; subst k5; exact absurd this (by decide)
                  · simp at k5; rw [k5.1] at this; exact absurd this (by decide)
                  · simp at k5; rw [k5.1] at this; exact absurd this (by decide)
              | [b], _ =>
                rcases k5 with k5 | k5 | k5
                · left; simpa using k5
                · cases tail with
                  | nil => simp at k5
                  | cons d ds =>
                    have := k7 d rfl
                    simp at k5; rw [k5.2] at this; exact absurd this (by decide)
                · cases tail with
                  | nil => simp at k5
                  | cons d ds =>
                    have := k7 d rfl
                    simp at k5; rw [k5.2] at this; exact absurd this (by decide)
              | b :: d :: bs, _ => simpa using k5
            obtain ⟨am, ham⟩ := amount_exists hind hacc hgap k7
            exact ⟨_, ham⟩
        · exact ⟨_, .passed hind k2 (by
            intro y hy
            simp only [List.head?_cons, Option.mem_def, Option.some.injEq] at hy
            subst hy
            exact ⟨by simpa using hl, by tauto, by tauto⟩)⟩
    · exact ⟨_, .unknown (.other (by tauto) (by tauto) h2 h3 (by simpa using h4) (by tauto) (by tauto))⟩

/-! ### The items of a line -/

/-- The item for a state. -/
def stateItemsOf : TransactionState → List (ItemType × Str)
  | .noState => []
  | s => [(.stateItem, s.mark)]

/-- The items the lexer makes of a line. An empty header note is sometimes an item and sometimes not. -/
def Line.Items (hint : Str) : Line → LineItems → Prop
  | .passed, li => li = { items := [] }
  | .blank, li => li = { items := [(.emptyLineItem, [])] }
  | .header d s p n, li => li = { items := (.dateItem, d) :: (stateItemsOf s ++ [(.payeeItem, p), (.transactionHeaderCommentItem, n)]) } ∨
      n = [] ∧ li = { items := (.dateItem, d) :: (stateItemsOf s ++ [(.payeeItem, p)]) }
  | .budget p, li => li = { items := [(.periodItem, p)] }
  | .note x, li => li = { items := [(.commentItem, x)] }
  | .posting a none, li => li = { items := [(.accountItem, a)] }
  | .posting a (some (c, n)), li => li = { items := [(.accountItem, a), (.commodityItem, c), (.amountItem, n)] }
  | .inclusion name, li => li = { items := [(.includeItem, splitDir hint ++ name)] }
  | .unknown e, li => li = { items := [], err := some e }

theorem letter_not_comment [U : Unicode] {c : Char} (h : U.isLetter c = true) : c ≠ ';' ∧ c ≠ '#' := by
  constructor <;> rintro rfl <;> rw [U.letter_ascii _ (by decide)] at h <;> exact absurd h (by decide)

/-- What is left of a header after the payee. -/
theorem headerRest_field {p r note : Str} (hp : FieldText p) (h : HeaderRest r note) :
    payeeItems (p ++ r) = [(.payeeItem, p), (.transactionHeaderCommentItem, note)] ∨ note = [] ∧ payeeItems (p ++ r) = [(.payeeItem, p)] := by
  have key : ∀ {e n r'}, PayeeStop e n → (e = [' '] → ∃ r'', r' = ' ' :: r'') → field (p ++ (e ++ r')) = (p, r') := by
    rintro e n r' (⟨c, hc, rfl | rfl⟩ | ⟨rfl, _⟩) hr
    · exact field_stop hp hc r'
    · exact field_blank_stop hp hc r'
    · obtain ⟨r'', rfl⟩ := hr rfl
      exact field_blanks hp r''
  cases h with
  | none => right; simp [payeeItems, field_end hp, trimSpaceStart]
  | blank => right; simp [payeeItems, field_end_blank hp, trimSpaceStart]
  | ended he =>
    right
    have hf : field (p ++ r) = (p, []) := by
      have := key he (r' := []) (by
        rintro rfl
        rcases he with ⟨c, hc, h | h⟩ | ⟨_, h⟩
        · cases h; exact absurd hc (by decide)
        · cases h
        · omega)
      simpa using this
    simp [payeeItems, hf, trimSpaceStart]
  | @blanks e n he =>
    left
    have hf := key he (r' := List.replicate (n + 1) ' ') (fun _ => ⟨_, List.replicate_succ⟩)
    rw [payeeItems, hf]
    simp only
    rw [trimSpaceStart_all (by simp), if_neg (by simp), List.tail_replicate, trimSpaceStart_all (by simp)]
    simp
  | @note e n c w _ he hc hx =>
    left
    have hf := key he (r' := List.replicate n ' ' ++ c :: w) (by
      rintro rfl
      rcases he with ⟨d, hd, h | h⟩ | ⟨_, h⟩
      · cases h; exact absurd hd (by decide)
      · cases h
      · obtain ⟨m, rfl⟩ : ∃ m, n = m + 1 := ⟨n - 1, by omega⟩
        exact ⟨List.replicate m ' ' ++ c :: w, by rw [List.replicate_succ]; rfl⟩)
    rw [payeeItems, hf]
    simp only
    rw [trimSpaceStart_blanks (by simpa using hc) (by simp), if_neg (by simp), List.tail_cons, commentText_trim hx]

theorem amountGap_width {gap : Str} (h : AmountGap gap) : ∃ b : Str, (b = [] ∨ b = [' ']) ∧ ∃ g, gap = b ++ g ∧ 2 ≤ blankWidth g ∧ White g ∧
    ∀ (a tail : Str), OneBlank a → accountName (a ++ (gap ++ tail)) = (a, g ++ tail) := by
  obtain ⟨h1, h2 | h2 | h2⟩ := h
  · cases gap with
    | nil => cases h2
    | cons x xs =>
      simp only [List.head?_cons, Option.some.injEq] at h2
      subst h2
      refine ⟨[], Or.inl rfl, _, rfl, ?_, h1, fun a tail ha => accountName_tab ha _⟩
      simp [blankWidth]
  · match gap, h2 with
    | [], h2 => simp at h2
    | [_], h2 => simp at h2
    | x :: y :: g, h2 =>
      simp only [List.take_succ_cons, List.take_zero, List.cons.injEq, and_true] at h2
      obtain ⟨rfl, rfl⟩ := h2
      refine ⟨[], Or.inl rfl, _, rfl, ?_, h1, fun a tail ha => accountName_blanks ha _⟩
      simp [blankWidth]
      omega
  · match gap, h2 with
    | [], h2 => simp at h2
    | [_], h2 => simp at h2
    | x :: y :: g, h2 =>
      simp only [List.take_succ_cons, List.take_zero, List.cons.injEq, and_true] at h2
      obtain ⟨rfl, rfl⟩ := h2
      refine ⟨[' '], Or.inr rfl, _, rfl, ?_, fun c hc => h1 c (by simp [List.mem_cons.1 hc]), fun a tail ha => ?_⟩
      · simp [blankWidth]
      · rw [accountName]
        have := accountLoop_text a ha (' ' :: '\t' :: (g ++ tail)) [] (by simp)
        simp only [List.cons_append, List.nil_append] at this ⊢
        rw [this]
        simp [accountLoop, ha.2.2]

theorem lineIs_items [U : Unicode] (hint : Str) {l : Str} {L : Line} (h : LineIs l L) : L.Items hint (lineItems hint l) := by
  cases h with
  | blank => rfl
  | comment hc => simp [Line.Items, lineItems, hc]
  | @passed ws rest h1 h2 h3 =>
    obtain ⟨cs, k1, k2⟩ := indent_items hint h1 h2
    show lineItems hint (ws ++ rest) = _
    rw [k1, postingItems, k2]
    cases rest with
    | nil => rfl
    | cons c cs =>
      obtain ⟨n1, n2, n3⟩ := h3 c rfl
      simp [n1, n2, n3]
  | @note ws c written text h1 h2 h3 =>
    have hink : StartsInk (c :: written) := by
      intro x hx
      simp only [List.head?_cons, Option.some.injEq] at hx
      subst hx
      rcases h2 with rfl | rfl <;> decide
    obtain ⟨cs, k1, k2⟩ := indent_items hint h1 hink
    show lineItems hint (ws ++ c :: written) = _
    rw [k1, postingItems, k2]
    simp only [h2, if_true, commentText_trim h3]
  | @posting ws account t h1 h2 h3 =>
    have hink : StartsInk (account ++ t) := (white_letter h2.1).append (by
      obtain ⟨c, hc, _⟩ := h2.1
      rintro rfl
      cases hc)
    obtain ⟨cs, k1, k2⟩ := indent_items hint h1 hink
    show lineItems hint (ws ++ (account ++ t)) = _
    have hacc : accountName (account ++ t) = (account, []) := by
      rcases h3 with rfl | rfl
      · rw [List.append_nil, accountName_end h2.2]
      · exact accountName_end_blank h2.2
    rw [k1, postingItems, k2]
    obtain ⟨⟨c, hc, hl⟩, _⟩ := h2
    cases account with
    | nil => cases hc
    | cons x xs =>
      simp only [List.head?_cons, Option.mem_def, Option.some.injEq] at hc
      subst hc
      obtain ⟨n1, n2⟩ := letter_not_comment hl
      simp only [List.cons_append] at hacc ⊢
      rw [if_neg (by simp [n1, n2]), if_pos hl]
      simp [hacc, spaceWidth, blankWidth]
  | @amount ws account gap com ws2 number t h1 h2 h3 h4 h5 h6 h7 h8 h9 h10 h11 =>
    have hne : account ≠ [] := by
      obtain ⟨c, hc, _⟩ := h2.1
      rintro rfl
      cases hc
    have hink : StartsInk (account ++ (gap ++ (com ++ (ws2 ++ (number ++ t))))) := (white_letter h2.1).append hne
    obtain ⟨cs, k1, k2⟩ := indent_items hint h1 hink
    show lineItems hint _ = _
    obtain ⟨b, _, g, _, hw, hg, hacc⟩ := amountGap_width h3
    have hacc := hacc account (com ++ (ws2 ++ (number ++ t))) h2.2
    rw [k1, postingItems, k2]
    obtain ⟨⟨c, hc, hl⟩, _⟩ := h2
    cases account with
    | nil => cases hc
    | cons x xs =>
      simp only [List.head?_cons, Option.mem_def, Option.some.injEq] at hc
      subst hc
      obtain ⟨n1, n2⟩ := letter_not_comment hl
      simp only [List.cons_append] at hacc ⊢
      rw [if_neg (by simp [n1, n2]), if_pos hl]
      simp only [hacc]
      rw [spaceWidth_skip hg h11, if_neg (by omega), afterSpace_skip hg h11]
      have hstop : ∀ d ∈ (ws2 ++ (number ++ t)).head?, isCommodityChar d = false := by
        intro d hd
        cases ws2 with
        | nil => exact number_not_commodity (h7 rfl d (by simpa using hd))
        | cons y ys =>
          have := h6 (by simp)
          simp only [List.cons_append, List.head?_cons, Option.mem_def, Option.some.injEq] at hd this
          subst hd
          rcases this with rfl | rfl <;> simp [isCommodityChar]
      have htw : (com ++ (ws2 ++ (number ++ t))).takeWhile isCommodityChar = com ∧
          (com ++ (ws2 ++ (number ++ t))).dropWhile isCommodityChar = ws2 ++ (number ++ t) := by
        rw [List.takeWhile_append_of_pos h4, List.dropWhile_append_of_pos h4]
        cases hr : ws2 ++ (number ++ t) with
        | nil => simp
        | cons y ys => simp [hstop y (by rw [hr]; rfl)]
      rw [amountItems, htw.1, htw.2]
      rw [spaceWidth_skip h5 h10, afterSpace_skip h5 h10, field_trailer h8 h9]
      have : 0 < blankWidth ws2 ↔ ws2 ≠ [] := by
        constructor
        · rintro h rfl
          simp [blankWidth] at h
        · intro h
          have := h6 h
          cases ws2 with
          | nil => exact absurd rfl h
          | cons y ys =>
            simp only [List.head?_cons, Option.some.injEq] at this
            rcases this with rfl | rfl <;> simp [blankWidth]
      by_cases hws : ws2 = []
      · rw [if_neg (by rw [this]; simpa using hws), if_pos hws]
      · rw [if_pos (this.2 hws), if_neg hws]
  | @header date gap state gap2 payee r note h1 h2 h3 h4 h5 h6 h7 h8 h9 =>
    have hr : gap ++ (state.mark ++ (gap2 ++ (payee ++ r))) = [] ∨ (gap ++ (state.mark ++ (gap2 ++ (payee ++ r)))).head? = some ' ' := by
      rcases h4 with h4 | ⟨rfl, rfl, rfl, rfl⟩
      · right
        cases gap with
        | nil => cases h4
        | cons x xs => simpa using h4
      · left
        rw [(h6 rfl).1]
        rfl
    obtain ⟨k1, k2⟩ := takeWhile_word h2 hr
    have hst : stateItems (gap ++ (state.mark ++ (gap2 ++ (payee ++ r)))) = stateItemsOf state ++ payeeItems (payee ++ r) := by
      unfold stateItems
      cases state with
      | noState =>
        obtain ⟨rfl, n1, n2⟩ := h6 rfl
        simp only [TransactionState.mark, List.nil_append, stateItemsOf]
        rw [afterSpace_skip h3 h8]
        have n3 : (payee ++ r).head? ≠ some '!' ∧ (payee ++ r).head? ≠ some '*' := by
          cases payee with
          | cons x xs => exact ⟨by simpa using n1, by simpa using n2⟩
          | nil =>
            simp only [List.nil_append] at h8 ⊢
            have hpe : ∀ {e n} (r' : Str), PayeeStop e n → (e ++ r').head? ≠ some '!' ∧ (e ++ r').head? ≠ some '*' := by
              rintro e n r' (⟨c, hc, rfl | rfl⟩ | ⟨rfl, _⟩)
              · rcases hc with rfl | rfl | rfl <;> simp
              · simp
              · simp
            cases h9 with
            | none => simp
            | blank => simp
            | ended he => simpa using hpe [] he
            | blanks he => exact hpe _ he
            | note he => exact hpe _ he
        cases hpr : payee ++ r with
        | nil => rfl
        | cons x xs =>
          rw [hpr] at n3
          simp only [List.head?_cons, ne_eq, Option.some.injEq] at n3
          split
          · rename_i hx; simp only [List.cons.injEq] at hx; exact absurd hx.1 n3.1
          · rename_i hx; simp only [List.cons.injEq] at hx; exact absurd hx.1 n3.2
          · rfl
      | uncleared =>
        rw [show afterSpace (gap ++ (TransactionState.mark .uncleared ++ (gap2 ++ (payee ++ r)))) = '!' :: (gap2 ++ (payee ++ r)) from
          afterSpace_skip h3 (fun c hc => by cases hc; decide)]
        simp only [afterSpace_skip h5 h8]
        rfl
      | cleared =>
        rw [show afterSpace (gap ++ (TransactionState.mark .cleared ++ (gap2 ++ (payee ++ r)))) = '*' :: (gap2 ++ (payee ++ r)) from
          afterSpace_skip h3 (fun c hc => by cases hc; decide)]
        simp only [afterSpace_skip h5 h8]
        rfl
    have hitems : lineItems hint (date ++ (gap ++ (state.mark ++ (gap2 ++ (payee ++ r))))) =
        { items := (.dateItem, date) :: (stateItemsOf state ++ payeeItems (payee ++ r)) } := by
      obtain ⟨c, hc, hn⟩ := h1
      cases date with
      | nil => cases hc
      | cons x xs =>
        simp only [List.head?_cons, Option.mem_def, Option.some.injEq] at hc
        subst hc
        obtain ⟨n1, n2, n3, n4⟩ := number_not_special hn
        rw [List.cons_append] at k1 k2 ⊢
        rw [lineItems, if_neg (by tauto), if_neg n3, if_neg n4, if_pos hn, headerItems, k1, k2, hst]
    rcases headerRest_field h7 h9 with e | ⟨rfl, e⟩
    · left; rw [hitems, e]
    · right; rw [hitems, e]; exact ⟨rfl, rfl⟩
  | @budget gap period t h1 h2 h3 h4 h5 =>
    show lineItems hint _ = _
    rw [lineItems, if_neg (by decide), if_neg (by decide), if_pos rfl, periodItems, spaceWidth_skip h1 h5, if_neg (by omega), afterSpace_skip h1 h5,
      field_trailer h3 h4]
  | @inclusion ws name t h1 h2 h3 h4 h5 h6 =>
    have hr : ws ++ (name ++ t) = [] ∨ (ws ++ (name ++ t)).head? = some ' ' := by
      right
      cases ws with
      | nil => cases h2
      | cons x xs => simpa using h2
    obtain ⟨k1, k2⟩ := takeWhile_word (w := str "include") (by decide) hr
    show lineItems hint _ = _
    have : str "include" ++ (ws ++ (name ++ t)) = 'i' :: (str "nclude" ++ (ws ++ (name ++ t))) := rfl
    rw [this, lineItems, if_neg (by decide), if_pos rfl, includeItems, ← this, k1, k2, if_neg (by simp)]
    simp only
    rw [afterSpace_skip h1 (h5.append h3), field_trailer h4 h6, if_neg]
    rintro (h | h)
    · simp [h3] at h
    · exact h3 h
  | unknown hu => exact unknown_items hint hu

/-- The items of a line tell what it is. -/
theorem items_determine {hint : Str} {L L' : Line} {li : LineItems} (h : L.Items hint li) (h' : L'.Items hint li) : L = L' := by
  have hs : ∀ s s' : TransactionState, ∀ x y : List (ItemType × Str), ∀ p p', stateItemsOf s ++ (.payeeItem, p) :: x = stateItemsOf s' ++ (.payeeItem, p') :: y →
      s = s' ∧ p = p' ∧ x = y := by
    intro s s' x y p p' h
    cases s <;> cases s' <;> simp_all [stateItemsOf, TransactionState.mark]
  cases L with
  | header d s p n =>
    cases L' with
    | header d' s' p' n' =>
      rcases h with rfl | ⟨rfl, rfl⟩ <;> rcases h' with h' | ⟨rfl, h'⟩
      all_goals
        simp only [LineItems.mk.injEq, List.cons.injEq, Prod.mk.injEq, true_and, and_true] at h'
        obtain ⟨rfl, h'⟩ := h'
        obtain ⟨rfl, rfl, h'⟩ := hs _ _ _ _ _ _ h'
        simp_all
    | posting a o => rcases o with _ | ⟨c, q⟩ <;> rcases h with rfl | ⟨rfl, rfl⟩ <;> cases h'
    | _ => rcases h with rfl | ⟨rfl, rfl⟩ <;> cases h'
  | posting a o =>
    rcases o with _ | ⟨c, q⟩ <;> cases h <;> cases L' with
    | header d' s' p' n' => rcases h' with h' | ⟨_, h'⟩ <;> cases h'
    | posting a o => rcases o with _ | ⟨c, q⟩ <;> (cases h'; try rfl)
    | _ => cases h'
  | inclusion name =>
    cases h
    cases L' with
    | header d' s' p' n' => rcases h' with h' | ⟨_, h'⟩ <;> cases h'
    | posting a o => rcases o with _ | ⟨c, q⟩ <;> cases h'
    | inclusion name' => simpa [Line.Items] using h'
    | _ => cases h'
  | _ =>
    cases h
    cases L' with
    | header d' s' p' n' => rcases h' with h' | ⟨_, h'⟩ <;> cases h'
    | posting a o => rcases o with _ | ⟨c, q⟩ <;> cases h'
    | _ => cases h' <;> rfl

theorem lineIs_unique [Unicode] {l : Str} {L L' : Line} (h : LineIs l L) (h' : LineIs l L') : L = L' :=
  items_determine (lineIs_items [] h) (lineIs_items [] h')

end Gledger
