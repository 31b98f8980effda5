/-
The lines of a budget report, and how they can be read back (for C129).
-/
import Verif.Props.Clear

set_option maxRecDepth 100000

namespace Gledger

/-! ### Lines and cells -/

theorem span_inj {α : Type} {p : α → Prop} {W W' R R' : List α} (hW : ∀ w ∈ W, p w) (hW' : ∀ w ∈ W', p w) (hR : ∀ r ∈ R.head?, ¬ p r)
    (hR' : ∀ r ∈ R'.head?, ¬ p r) (h : W ++ R = W' ++ R') : W = W' ∧ R = R' := by
  induction W generalizing W' with
  | nil =>
    cases W' with
    | nil => exact ⟨rfl, h⟩
    | cons w' W' =>
      rw [List.nil_append] at h
      exact absurd (hW' w' (by simp)) (hR w' (by rw [h]; rfl))
  | cons w W ih =>
    cases W' with
    | nil =>
      rw [List.nil_append] at h
      exact absurd (hW w (by simp)) (hR' w (by rw [← h]; rfl))
    | cons w' W' =>
      rw [List.cons_append, List.cons_append, List.cons.injEq] at h
      obtain ⟨rfl, h⟩ := h
      obtain ⟨h1, h2⟩ := ih (fun w hw => hW w (by simp [hw])) (fun w hw => hW' w (by simp [hw])) h
      exact ⟨by rw [h1], h2⟩

theorem rspan_inj {α : Type} {p : α → Prop} {W W' R R' : List α} (hW : ∀ w ∈ W, p w) (hW' : ∀ w ∈ W', p w) (hR : ∀ r ∈ R.getLast?, ¬ p r)
    (hR' : ∀ r ∈ R'.getLast?, ¬ p r) (h : R ++ W = R' ++ W') : R = R' ∧ W = W' := by
  have h := congrArg List.reverse h
  rw [List.reverse_append, List.reverse_append] at h
  obtain ⟨h1, h2⟩ := span_inj (p := p) (by simpa using hW) (by simpa using hW') (by simpa using hR) (by simpa using hR') h
  exact ⟨List.reverse_injective h2, List.reverse_injective h1⟩

theorem ended_inj {L L' : List Str} (h1 : ∀ l ∈ L, '\n' ∉ l) (h2 : ∀ l ∈ L', '\n' ∉ l)
    (h : (L.map (· ++ ['\n'])).flatten = (L'.map (· ++ ['\n'])).flatten) : L = L' := by
  have e := joinLines_inj (ls := L ++ [[]]) (ms := L' ++ [[]]) (by simpa [or_imp, forall_and] using h1) (by simpa [or_imp, forall_and] using h2) (by simp) (by simp) (by
    rw [← joinLines_warnings L (by simp), ← joinLines_warnings L' (by simp), h])
  exact List.append_cancel_right e

theorem leftAligned_inj {w : Nat} {s t : Str} (hs : s.getLast? ≠ some ' ') (ht : t.getLast? ≠ some ' ') (h : leftAligned w s = leftAligned w t) : s = t := by
  unfold leftAligned at h
  refine (rspan_inj (p := (· = ' ')) (fun c hc => List.eq_of_mem_replicate hc) (fun c hc => List.eq_of_mem_replicate hc) ?_ ?_ h).1
  · intro c hc e; subst e; exact hs hc
  · intro c hc e; subst e; exact ht hc

theorem cell_inj {x y e f n m : Str} (hx : ∃ c, x.getLast? = some c ∧ isDigit c = true) (hy : ∃ c, y.getLast? = some c ∧ isDigit c = true)
    (he : ∀ c ∈ e, isDigit c = false) (hf : ∀ c ∈ f, isDigit c = false) (he1 : e.head? = some ' ') (hf1 : f.head? = some ' ') (hn : ' ' ∉ n) (hm : ' ' ∉ m)
    (h : x ++ (e ++ n) = y ++ (f ++ m)) : x = y ∧ e ++ n = f ++ m := by
  have key : ∀ {y e f n m u : Str}, (∃ c, u.getLast? = some c ∧ isDigit c = true) → (∀ c ∈ e, isDigit c = false) → f.head? = some ' ' → ' ' ∉ n →
      e ++ n = u ++ (f ++ m) → False := by
    intro y e f n m u ⟨d, hd, hdd⟩ he hf hn h
    have hdu := List.mem_of_getLast? hd
    rcases List.append_eq_append_iff.1 h with ⟨v, rfl, h2⟩ | ⟨v, rfl, h2⟩
    · apply hn
      rw [h2]
      cases f with
      | nil => cases hf
      | cons c f => rw [List.head?_cons, Option.some.injEq] at hf; simp [hf]
    · have := he d (by simp [hdu])
      rw [hdd] at this
      cases this
  have last : ∀ {x u y : Str}, y = x ++ u → u ≠ [] → (∃ c, y.getLast? = some c ∧ isDigit c = true) → ∃ c, u.getLast? = some c ∧ isDigit c = true := by
    rintro x u y rfl hu ⟨c, hc, hd⟩
    refine ⟨c, ?_, hd⟩
    rwa [List.getLast?_append_of_ne_nil _ hu] at hc
  rcases List.append_eq_append_iff.1 h with ⟨u, h1, h2⟩ | ⟨u, h1, h2⟩
  · by_cases hu : u = []
    · subst hu; exact ⟨by simpa using h1.symm, h2⟩
    · exact (key (y := []) (last h1 hu hy) he hf1 hn h2).elim
  · by_cases hu : u = []
    · subst hu; exact ⟨by simpa using h1, h2.symm⟩
    · exact (key (y := []) (last h1 hu hx) hf he1 hm h2).elim

theorem displayQuantity_blank (q : I64) : ' ' ∉ displayQuantity q := by
  intro h
  rcases displayQuantity_chars q _ h with h | h | h <;> revert h <;> decide

theorem displayQuantity_digit (q : I64) : ∃ c, (displayQuantity q).getLast? = some c ∧ isDigit c = true := by
  unfold displayQuantity renderHundredths
  generalize Dbl.hundredths _ = n
  have h := pad2_digits (n % 100)
  cases hl : (pad2 (n % 100)).getLast? with
  | none => exact absurd (List.getLast?_eq_none_iff.1 hl) h.1
  | some c =>
    refine ⟨c, ?_, ?_⟩
    · rw [List.getLast?_append, List.getLast?_append, hl]; rfl
    · have := h.2 c (List.mem_of_getLast? hl)
      simpa [isDigit, Digit] using this

/-- The line of a category without its end. -/
def tableLine (k : Str) (a b : I64) (x : Amount) : Str :=
  leftAligned 30 k ++ (str " | " ++ rightAligned 20 (displayQuantity a)) ++ (str " | " ++ rightAligned 20 (displayQuantity b)) ++
    (str " | " ++ rightAligned 20 (x.commodity ++ displayQuantity x.quantity)) ++ str " |"

theorem tableLine_inj {k k' : Str} {a a' b b' : I64} {x x' : Amount} (hk : k.getLast? ≠ some ' ') (hk' : k'.getLast? ≠ some ' ')
    (hx : LegibleCommodity x.commodity) (hx' : LegibleCommodity x'.commodity) (h : tableLine k a b x = tableLine k' a' b' x') :
    k = k' ∧ displayQuantity a = displayQuantity a' ∧ displayQuantity b = displayQuantity b' ∧ x.LooksLike x' := by
  have bar : (∀ c ∈ str " | ", isDigit c = false) ∧ (str " | ").head? = some ' ' := by decide
  have pad : ∀ n, ∀ c ∈ List.replicate n ' ', isDigit c = false := by
    intro n c hc; rw [List.eq_of_mem_replicate hc]; decide
  unfold tableLine at h
  have h := List.append_cancel_right h
  have last : ∀ (s : Str) (q : I64), ∃ c, (s ++ (str " | " ++ rightAligned 20 (displayQuantity q))).getLast? = some c ∧ isDigit c = true := by
    intro s q
    obtain ⟨c, hc, hd⟩ := displayQuantity_digit q
    refine ⟨c, ?_, hd⟩
    unfold rightAligned
    simp only [List.getLast?_append, hc]
    rfl
  have ink : ∀ {y : Amount}, LegibleCommodity y.commodity → (y.commodity ++ displayQuantity y.quantity).head? ≠ some ' ' := by
    intro y hy
    have := display_ink (a := y) hy
    unfold Amount.display at this
    rwa [if_pos rfl] at this
  -- the last cell
  have cells : ∀ (y : Amount), str " | " ++ rightAligned 20 (y.commodity ++ displayQuantity y.quantity) =
      (str " | " ++ List.replicate (20 - (y.commodity ++ displayQuantity y.quantity).length) ' ' ++ y.commodity) ++ displayQuantity y.quantity := by
    intro y; unfold rightAligned; simp only [List.append_assoc]
  have clean : ∀ {y : Amount} (n : Nat), LegibleCommodity y.commodity → ∀ c ∈ str " | " ++ List.replicate n ' ' ++ y.commodity, isDigit c = false := by
    intro y n hy c hc
    rw [List.mem_append, List.mem_append] at hc
    rcases hc with (hc | hc) | hc
    · exact bar.1 c hc
    · exact pad n c hc
    · exact (hy.2.2.2 c hc).1
  have start : ∀ (n : Nat) (s : Str), (str " | " ++ List.replicate n ' ' ++ s).head? = some ' ' := fun _ _ => rfl
  rw [cells x, cells x'] at h
  obtain ⟨h, h3⟩ := cell_inj (last _ _) (last _ _) (clean _ hx) (clean _ hx') (start _ _) (start _ _) (displayQuantity_blank _) (displayQuantity_blank _) h
  rw [← cells x, ← cells x'] at h3
  have h3 := rightAligned_inj (ink hx) (ink hx') (List.append_cancel_left h3)
  obtain ⟨c1, c2⟩ := commodity_split hx.2.2.2 hx'.2.2.2 h3
  -- the one before
  have cell : ∀ q : I64, str " | " ++ rightAligned 20 (displayQuantity q) =
      (str " | " ++ List.replicate (20 - (displayQuantity q).length) ' ' ++ []) ++ displayQuantity q := by
    intro q; unfold rightAligned; simp only [List.append_assoc, List.append_nil]
  rw [cell b, cell b'] at h
  obtain ⟨h, h2⟩ := cell_inj (last _ _) (last _ _) (clean (y := ⟨[], 0⟩) _ legible_nil) (clean (y := ⟨[], 0⟩) _ legible_nil) (start _ _) (start _ _)
    (displayQuantity_blank _) (displayQuantity_blank _) h
  rw [← cell b, ← cell b'] at h2
  have h2 := rightAligned_inj (displayQuantity_ink _) (displayQuantity_ink _) (List.append_cancel_left h2)
  -- the first one, and the name
  rw [cell a, cell a', ← List.append_assoc (leftAligned 30 k), ← List.append_assoc (leftAligned 30 k')] at h
  have blank : ∀ (s : Str) (n : Nat), ∀ c ∈ (s ++ (str " | " ++ List.replicate n ' ' ++ [])).getLast?, ¬ c ≠ ' ' := by
    intro s n c hc
    rw [List.append_nil, List.getLast?_append, List.getLast?_append, List.getLast?_replicate] at hc
    split at hc
    · have e : (some c : Option Char) = some ' ' := hc.symm
      simpa using e
    · have e : (some c : Option Char) = some ' ' := hc.symm
      simpa using e
  obtain ⟨h0, h1⟩ := rspan_inj (p := (· ≠ ' ')) (fun c hc e => displayQuantity_blank a (e ▸ hc)) (fun c hc e => displayQuantity_blank a' (e ▸ hc))
    (blank _ _) (blank _ _) h
  rw [h1] at h0
  exact ⟨leftAligned_inj hk hk' (List.append_cancel_right h0), h1, h2, c1, c2⟩

/-! ### Budgets -/

theorem format_inj {d d' : Date} (h : d.Real) (h0 : 0 ≤ d.year) (h1 : d.year ≤ 9999) (h' : d'.Real) (h0' : 0 ≤ d'.year) (h1' : d'.year ≤ 9999)
    (e : d.format = d'.format) : d = d' := by
  have a := C11_format_parses_back d h h0 h1
  have b := C11_format_parses_back d' h' h0' h1'
  rw [e, b] at a
  cases a
  rfl

theorem format_length {d : Date} (h : d.Real) (h0 : 0 ≤ d.year) (h1 : d.year ≤ 9999) : d.format.length = 10 := by
  obtain ⟨y, m, dd, n, e, _, ⟨a, _⟩, ⟨b, _⟩, ⟨c, _⟩⟩ := format_written h h0 h1
  rw [e]
  simp [a, b, c]

theorem format_digits {d : Date} (h : d.Real) (h0 : 0 ≤ d.year) (h1 : d.year ≤ 9999) : ∀ c ∈ d.format, isDigit c = true ∨ c = '-' := by
  obtain ⟨y, m, dd, n, e, _, a, b, c⟩ := format_written h h0 h1
  rw [e]
  intro x hx
  simp only [List.mem_append, List.mem_cons] at hx
  have dig : ∀ {k n : Nat} {s : Str}, WrittenIn k s n → ∀ x ∈ s, isDigit x = true := by
    intro k n s hs x hx
    have := hs.2.1 x hx
    simpa [isDigit, Digit] using this
  rcases hx with hx | rfl | hx | rfl | hx
  · exact Or.inl (dig a x hx)
  · exact Or.inr rfl
  · exact Or.inl (dig b x hx)
  · exact Or.inr rfl
  · exact Or.inl (dig c x hx)

def head4 : Str := str "          Overspent in 2020-?? |               £??.??"
def head5 : Str := str "                      Budgeted |               £??.??"
def head6 : Str := str "        Budgeted in the future |               £??.??"
def head7 : Str := str "-----------------------------------------------------"
def head8 : Str := str "                To be budgeted |               £??.??"
def head11 : Str := str "Category                       | Budgeted             | Activity             | Available            |"
def head12 : Str := str "-----------------------------------------------------------------------------------------------------"

theorem heads_oneLine : ∀ l ∈ [head4, head5, head6, head7, head8, head11, head12], '\n' ∉ l := by decide

/-- The lines of the summary of a month. -/
def summaryLines (month : Date) (x : Amount) : List Str :=
  [month.format ++ str " 00:00:00 +0000 UTC", [], rightAligned 30 (str "Funds") ++ str " | " ++ rightAligned 20 (x.commodity ++ displayQuantity x.quantity),
    head4, head5, head6, head7, head8, [], [], head11, head12]

theorem summary_lines (month : Date) (x : Amount) : summary month x = ((summaryLines month x).map (· ++ ['\n'])).flatten := by
  unfold summary summaryLines summaryLine
  have e0 : str " 00:00:00 +0000 UTC\n" = str " 00:00:00 +0000 UTC" ++ ['\n'] := by decide
  have e1 : str "\n" = ['\n'] := by decide
  have e4 : str "          Overspent in 2020-?? |               £??.??\n" = head4 ++ ['\n'] := by decide
  have e5 : str "                      Budgeted |               £??.??\n" = head5 ++ ['\n'] := by decide
  have e6 : str "        Budgeted in the future |               £??.??\n" = head6 ++ ['\n'] := by decide
  have e7 : str "-----------------------------------------------------\n" = head7 ++ ['\n'] := by decide
  have e8 : str "                To be budgeted |               £??.??\n" = head8 ++ ['\n'] := by decide
  have e11 : str "Category                       | Budgeted             | Activity             | Available            |\n" = head11 ++ ['\n'] := by decide
  have e12 : str "-----------------------------------------------------------------------------------------------------\n" = head12 ++ ['\n'] := by decide
  rw [e0, e1, e4, e5, e6, e7, e8, e11, e12]
  generalize head4 = h4
  generalize head5 = h5
  generalize head6 = h6
  generalize head7 = h7
  generalize head8 = h8
  generalize head11 = h11
  generalize head12 = h12
  simp only [List.map_cons, List.map_nil, List.flatten_cons, List.flatten_nil, List.append_assoc, List.append_nil, List.nil_append]

theorem summaryLines_inj {m m' : Date} {x x' : Amount} (hx : LegibleCommodity x.commodity) (hx' : LegibleCommodity x'.commodity)
    (h : summaryLines m x = summaryLines m' x') : m.format = m'.format ∧ x.LooksLike x' := by
  unfold summaryLines at h
  generalize str " 00:00:00 +0000 UTC" = u at h
  generalize str "Funds" = f at h
  generalize str " | " = b at h
  simp only [List.cons.injEq, and_true, true_and] at h
  obtain ⟨h1, h2⟩ := h
  have ink : ∀ {y : Amount}, LegibleCommodity y.commodity → (y.commodity ++ displayQuantity y.quantity).head? ≠ some ' ' := by
    intro y hy
    have := display_ink (a := y) hy
    unfold Amount.display at this
    rwa [if_pos rfl] at this
  exact ⟨List.append_cancel_right h1, commodity_split hx.2.2.2 hx'.2.2.2 (rightAligned_inj (ink hx) (ink hx') (List.append_cancel_left h2))⟩

theorem blocks_inj : ∀ {bs bs' : List (List Str × List Str)}, (∀ b ∈ bs, b.1.length = 12 ∧ ∀ l ∈ b.2, l ≠ []) → (∀ b ∈ bs', b.1.length = 12 ∧ ∀ l ∈ b.2, l ≠ []) →
    bs.flatMap (fun b => b.1 ++ (b.2 ++ [[]])) = bs'.flatMap (fun b => b.1 ++ (b.2 ++ [[]])) → bs = bs' := by
  intro bs
  induction bs with
  | nil =>
    intro bs' _ h' h
    cases bs' with
    | nil => rfl
    | cons b bs' => rw [List.flatMap_cons] at h; simp at h
  | cons b bs ih =>
    intro bs' h0 h' h
    cases bs' with
    | nil => rw [List.flatMap_cons] at h; simp at h
    | cons b' bs' =>
      rw [List.flatMap_cons, List.flatMap_cons, List.append_assoc, List.append_assoc, List.append_assoc, List.append_assoc] at h
      obtain ⟨h1, h2⟩ := List.append_inj h (by rw [(h0 b (by simp)).1, (h' b' (by simp)).1])
      obtain ⟨h3, h4⟩ := span_inj (p := (· ≠ [])) (h0 b (by simp)).2 (h' b' (by simp)).2 (by simp) (by simp) h2
      rw [List.singleton_append, List.singleton_append, List.cons.injEq] at h4
      rw [ih (fun b hb => h0 b (by simp [hb])) (fun b hb => h' b (by simp [hb])) h4.2, Prod.ext h1 h3]

/-- The posting can be told from the others in the table: its date is a day of the years 0 to 9999, its texts are on one line, its commodity can be told
from the number, and its category does not end in a blank. -/
structure Filed.Legible (e : Filed) : Prop where
  date : e.date.Real ∧ 0 ≤ e.date.year ∧ e.date.year ≤ 9999
  clear : e.posting.Clear
  line : '\n' ∉ e.posting.accountPath
  ends : ∀ k ds, e.category = some (k :: ds) → k.getLast? ≠ some ' '

/-- The budgets look alike: the same months; in each the same income and the same categories; and the same figures for each. -/
def BudgetsAlike (es es' : List Filed) : Prop := ∀ year month,
  (inMonth year month es = [] ↔ inMonth year month es' = []) ∧ (inMonth year month es ≠ [] →
    (incomeOf (inMonth year month es)).LooksLike (incomeOf (inMonth year month es')) ∧
    ∀ k, ((∃ e ∈ inMonth year month es, ∃ ds, e.category = some (k :: ds)) ↔ ∃ e ∈ inMonth year month es', ∃ ds, e.category = some (k :: ds)) ∧
      ((∃ e ∈ inMonth year month es, ∃ ds, e.category = some (k :: ds)) → figures k (inMonth year month es) = figures k (inMonth year month es') ∧
        categoryCommodity [k] (inMonth year month es) = categoryCommodity [k] (inMonth year month es')))

theorem categoryLine_table (k : Str) (es : List Filed) : categoryLine k es =
    tableLine k (- spent [k] es) (budgeted [k] es) ⟨categoryCommodity [k] es, budgeted [k] es - spent [k] es⟩ ++ ['\n'] := by
  have e : str " |\n" = str " |" ++ ['\n'] := by decide
  unfold categoryLine tableLine figures
  rw [e]
  simp only [List.flatMap_cons, List.flatMap_nil, List.append_assoc, List.append_nil]

/-- The lines of a month. -/
def monthBlock (names : Date → List Str) (es : List Filed) (m : Date) : List Str × List Str :=
  (summaryLines m (incomeOf (inMonth m.year m.month es)), (names m).map fun k =>
    tableLine k (- spent [k] (inMonth m.year m.month es)) (budgeted [k] (inMonth m.year m.month es))
      ⟨categoryCommodity [k] (inMonth m.year m.month es), budgeted [k] (inMonth m.year m.month es) - spent [k] (inMonth m.year m.month es)⟩)

theorem block_lines (m : Date) (x : Amount) (names : List Str) (f g : Str → Str) (h : ∀ k, f k = g k ++ ['\n']) :
    summary m x ++ (names.flatMap f) ++ ['\n'] = ((summaryLines m x ++ (names.map g ++ [[]])).map (· ++ ['\n'])).flatten := by
  have e : names.flatMap f = ((names.map g).map (· ++ ['\n'])).flatten := by
    rw [List.flatMap_def, List.map_map]
    exact congrArg List.flatten (List.map_congr_left fun k _ => h k)
  rw [e, summary_lines, List.map_append, List.flatten_append, List.map_append, List.flatten_append, List.append_assoc]
  rfl

theorem month_lines (names : Date → List Str) (es : List Filed) (months : List Date) :
    (months.flatMap fun m => summary m (incomeOf (inMonth m.year m.month es)) ++
      ((names m).flatMap fun k => categoryLine k (inMonth m.year m.month es)) ++ str "\n") =
    (((months.map (monthBlock names es)).flatMap fun b => b.1 ++ (b.2 ++ [[]])).map (· ++ ['\n'])).flatten := by
  have e1 : str "\n" = ['\n'] := by decide
  rw [e1]
  induction months with
  | nil => rfl
  | cons m months ih =>
    rw [List.flatMap_cons, ih, List.map_cons, List.flatMap_cons, List.map_append, List.flatten_append]
    rw [monthBlock, block_lines _ _ _ _ _ fun k => categoryLine_table k _]

theorem legible_category {e : Filed} (h : e.Legible) {k : Str} {ds : List Str} (hc : e.category = some (k :: ds)) : '\n' ∉ k ∧ k.getLast? ≠ some ' ' := by
  refine ⟨fun hm => h.line ?_, h.ends k ds hc⟩
  have hk : k ∈ e.posting.components := by
    unfold Filed.category at hc
    split at hc
    · split at hc
      · cases hc
      · rw [Option.some.injEq] at hc; rw [hc]; simp
    · rw [Option.some.injEq] at hc
      exact List.mem_of_mem_drop (i := 1) (by rw [hc]; simp)
    · cases hc
  have hi : [k] <:+: e.posting.components := by
    obtain ⟨a, b, e⟩ := List.append_of_mem hk
    exact ⟨a, b, by rw [e]; simp⟩
  have := joinPath_infix hi
  unfold Posting.components at this
  rw [joinPath_split] at this
  exact this.subset (by simpa [joinPath] using hm)

theorem clear_commodities {es : List Filed} (h : ∀ e ∈ es, e.posting.Clear) :
    (∀ f : Filed → Bool, LegibleCommodity (firstCommodity ((es.filter f).map Filed.posting))) ∧ ∀ cs, LegibleCommodity (categoryCommodity cs es) := by
  constructor
  · intro f
    unfold firstCommodity
    cases hw : writtenCommodities ((es.filter f).map Filed.posting) with
    | nil => exact legible_nil
    | cons c l =>
      have hm : c ∈ writtenCommodities ((es.filter f).map Filed.posting) := by rw [hw]; simp
      unfold writtenCommodities at hm
      simp only [List.mem_filter, List.mem_filterMap, Option.map_eq_some_iff] at hm
      obtain ⟨⟨p, hp, a, ha, rfl⟩, _⟩ := hm
      obtain ⟨e, he, rfl⟩ := List.mem_map.1 hp
      exact h e (List.mem_filter.1 he).1 a ha
  · intro cs
    unfold categoryCommodity
    cases hg : (es.filter fun e => e.category = some cs).getLast? with
    | none => exact legible_nil
    | some e =>
      have he := (List.mem_filter.1 (List.mem_of_getLast? hg)).1
      cases ha : e.posting.amount with
      | none => simpa [ha] using legible_nil
      | some a => simpa [ha] using h e he a ha

theorem tableLine_oneLine {k : Str} {a b : I64} {x : Amount} (hk : '\n' ∉ k) (hx : LegibleCommodity x.commodity) : '\n' ∉ tableLine k a b x ∧ tableLine k a b x ≠ [] := by
  have e : '\n' ∉ str " | " ∧ '\n' ∉ str " |" := by decide
  have d : '\n' ∉ x.commodity ++ displayQuantity x.quantity := by
    rw [List.mem_append, not_or]
    exact ⟨hx.1, displayQuantity_oneLine _⟩
  unfold tableLine
  refine ⟨?_, ?_⟩
  · simp only [List.mem_append, not_or]
    refine ⟨⟨⟨⟨?_, e.1, rightAligned_oneLine (displayQuantity_oneLine _)⟩, e.1, rightAligned_oneLine (displayQuantity_oneLine _)⟩, e.1, rightAligned_oneLine d⟩, e.2⟩
    unfold leftAligned
    rw [List.mem_append, not_or]
    exact ⟨hk, fun h => absurd (List.eq_of_mem_replicate h) (by decide)⟩
  · intro h
    exact absurd (List.append_eq_nil_iff.1 h).2 (by decide)

theorem summaryLines_oneLine {m : Date} {x : Amount} (hm : m.Real ∧ 0 ≤ m.year ∧ m.year ≤ 9999) (hx : LegibleCommodity x.commodity) :
    ∀ l ∈ summaryLines m x, '\n' ∉ l := by
  have e : '\n' ∉ str " | " ∧ '\n' ∉ str "Funds" ∧ '\n' ∉ str " 00:00:00 +0000 UTC" := by decide
  have d : '\n' ∉ x.commodity ++ displayQuantity x.quantity := by
    rw [List.mem_append, not_or]
    exact ⟨hx.1, displayQuantity_oneLine _⟩
  have f : '\n' ∉ m.format := by
    intro h
    rcases format_digits hm.1 hm.2.1 hm.2.2 _ h with h | h <;> revert h <;> decide
  have hh := heads_oneLine
  unfold summaryLines
  generalize head4 = h4 at *
  generalize head5 = h5 at *
  generalize head6 = h6 at *
  generalize head7 = h7 at *
  generalize head8 = h8 at *
  generalize head11 = h11 at *
  generalize head12 = h12 at *
  generalize str " | " = bar at *
  generalize str "Funds" = funds at *
  generalize str " 00:00:00 +0000 UTC" = utc at *
  have first : '\n' ∉ m.format ++ utc := by simp [f, e.2.2]
  have third : '\n' ∉ rightAligned 30 funds ++ bar ++ rightAligned 20 (x.commodity ++ displayQuantity x.quantity) := by
    simp only [List.mem_append, not_or]
    exact ⟨⟨rightAligned_oneLine e.2.1, e.1⟩, rightAligned_oneLine d⟩
  intro l hl
  simp only [List.mem_cons, List.not_mem_nil, or_false] at hl
  rcases hl with rfl | rfl | rfl | rfl | rfl | rfl | rfl | rfl | rfl | rfl | rfl | rfl
  · exact first
  · simp
  · exact third
  · exact hh _ (by simp)
  · exact hh _ (by simp)
  · exact hh _ (by simp)
  · exact hh _ (by simp)
  · exact hh _ (by simp)
  · simp
  · simp
  · exact hh _ (by simp)
  · exact hh _ (by simp)

end Gledger
