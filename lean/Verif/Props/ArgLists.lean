/-
C150: lists, prints and statistics for several arguments.
-/
import Verif.Props.ArgParts

namespace Gledger

/-- The lines of `text` are those of `text₁` and of `text₂`, each once, in the order of `StrLt`. -/
def ListsBoth (text text₁ text₂ : Str) : Prop :=
  ∃ L L₁ L₂ : List Str, L.Pairwise StrLt ∧ L₁.Pairwise StrLt ∧ L₂.Pairwise StrLt ∧ text = (L.map (· ++ str "\n")).flatten ∧ text₁ = (L₁.map (· ++ str "\n")).flatten ∧
    text₂ = (L₂.map (· ++ str "\n")).flatten ∧ ∀ a, a ∈ L ↔ a ∈ L₁ ∨ a ∈ L₂

theorem ListsBoth.of {P P₁ P₂ : Str → Prop} {text text₁ text₂ : Str} (h : Lists P text) (h₁ : Lists P₁ text₁) (h₂ : Lists P₂ text₂) (e : ∀ a, P a ↔ P₁ a ∨ P₂ a) :
    ListsBoth text text₁ text₂ := by
  obtain ⟨L, a1, a2, a3⟩ := h
  obtain ⟨L₁, b1, b2, b3⟩ := h₁
  obtain ⟨L₂, c1, c2, c3⟩ := h₂
  exact ⟨L, L₁, L₂, a1, b1, c1, a3, b3, c3, fun a => by rw [a2, b2, c2, e]⟩

/-- Two lists of filters want what either of them wants. -/
theorem wantedBy_two {F G : List Filter} (hF : F ≠ []) (hG : G ≠ []) (t : Transaction) : WantedBy (F ++ G) t ↔ WantedBy F t ∨ WantedBy G t := by
  unfold WantedBy WholeSelected
  simp only [List.append_eq_nil_iff, hF, hG, false_and, false_or, List.mem_append]
  constructor
  · rintro (⟨f, hf | hf, h⟩ | ⟨p, hp, f, hf | hf, h⟩)
    · exact .inl (.inl ⟨f, hf, h⟩)
    · exact .inr (.inl ⟨f, hf, h⟩)
    · exact .inl (.inr ⟨p, hp, f, hf, h⟩)
    · exact .inr (.inr ⟨p, hp, f, hf, h⟩)
  · rintro ((⟨f, hf, h⟩ | ⟨p, hp, f, hf, h⟩) | (⟨f, hf, h⟩ | ⟨p, hp, f, hf, h⟩))
    · exact .inl ⟨f, .inl hf, h⟩
    · exact .inr ⟨p, hp, f, .inl hf, h⟩
    · exact .inl ⟨f, .inr hf, h⟩
    · exact .inr ⟨p, hp, f, .inr hf, h⟩

/-- What two lists of filters select is selected by one of them. -/
theorem selection_mem_two {F G : List Filter} (hF : F ≠ []) {t : Transaction} {p : Posting} (h : p ∈ selection (F ++ G) t) : p ∈ selection F t ∨ p ∈ selection G t := by
  have hsub : p ∈ t.postings := by
    unfold selection at h
    split at h
    · exact h
    · exact List.mem_of_mem_filter h
  have hin : ∀ K : List Filter, (WholeSelected K t ∨ ∃ f ∈ K, f.Takes p) → p ∈ selection K t := fun K hK => by
    unfold selection
    split
    · exact hsub
    · rename_i hn
      exact List.mem_filter.2 ⟨hsub, decide_eq_true (hK.resolve_left hn)⟩
  have ho : WholeSelected (F ++ G) t ∨ ∃ f ∈ F ++ G, f.Takes p := by
    unfold selection at h
    split at h
    · rename_i hw
      exact .inl hw
    · exact .inr (of_decide_eq_true (List.mem_filter.1 h).2)
  rcases ho with (hn | ⟨f, hf, hw⟩) | ⟨f, hf, hw⟩
  · exact absurd (List.append_eq_nil_iff.1 hn).1 hF
  · rcases List.mem_append.1 hf with hf | hf
    · exact .inl (hin F (.inl (.inr ⟨f, hf, hw⟩)))
    · exact .inr (hin G (.inl (.inr ⟨f, hf, hw⟩)))
  · rcases List.mem_append.1 hf with hf | hf
    · exact .inl (hin F (.inr ⟨f, hf, hw⟩))
    · exact .inr (hin G (.inr ⟨f, hf, hw⟩))

theorem count_filter_or {α : Type} [DecidableEq α] (f g : α → Prop) [DecidablePred f] [DecidablePred g] (l : List α) (x : α) :
    (l.filter fun y => decide (f y ∨ g y)).count x = max ((l.filter fun y => decide (f y)).count x) ((l.filter fun y => decide (g y)).count x) := by
  have key : ∀ (P : α → Prop) [DecidablePred P], (l.filter fun y => decide (P y)).count x = if P x then l.count x else 0 := by
    intro P _
    by_cases h : P x
    · rw [if_pos h, List.count_filter (by simpa using h)]
    · rw [if_neg h]
      refine List.count_eq_zero_of_not_mem fun hx => h ?_
      simpa using (List.mem_filter.1 hx).2
  rw [key, key, key]
  by_cases h1 : f x <;> by_cases h2 : g x <;> simp [h1, h2]

theorem length_filter_or {α : Type} (f g : α → Bool) (l : List α) :
    max (l.filter f).length (l.filter g).length ≤ (l.filter fun x => f x || g x).length ∧
    (l.filter fun x => f x || g x).length ≤ (l.filter f).length + (l.filter g).length ∧
    ((∀ x ∈ l, ¬ (f x = true ∧ g x = true)) → (l.filter fun x => f x || g x).length = (l.filter f).length + (l.filter g).length) := by
  refine ⟨?_, ?_, fun h => ?_⟩
  · rw [max_le_iff]
    constructor <;>
    · rw [← List.countP_eq_length_filter, ← List.countP_eq_length_filter]
      exact List.countP_mono_left fun x _ hx => by simp [hx]
  · induction l with
    | nil => simp
    | cons x l ih =>
      simp only [List.filter_cons]
      cases f x <;> cases g x <;> simp <;> omega
  · rw [← List.length_append]
    exact (filter_or_perm f g l h).length_eq

section
variable [Unicode] {m m₁ m₂ : Machine} {o o₁ o₂ : Options} {args args₁ args₂ : List Str} {bytes : List UInt8} {js : List (Meant × Str)}
  {F G : List Filter} {admits : Date → Bool} {path : Str}

/-- The accounts some argument asks for are those asked for by some of the first or by some of the others. -/
theorem C150_accounts (hF : F ≠ []) (hG : G ≠ [])
    (g : Setting m o args bytes (F ++ G) admits path) (g₁ : Setting m₁ o₁ args₁ bytes F admits path) (g₂ : Setting m₂ o₂ args₂ bytes G admits path) {pg pg₁ pg₂ : Page}
    (r : Reading m.fs m.lib m.maxOpen path bytes js (.ok pg)) (r₁ : Reading m₁.fs m₁.lib m₁.maxOpen path bytes js (.ok pg₁)) (r₂ : Reading m₂.fs m₂.lib m₂.maxOpen path bytes js (.ok pg₂)) :
    ∃ text text₁ text₂ : Str, m.run o .accounts args = ⟨text, .exit 0⟩ ∧ m₁.run o₁ .accounts args₁ = ⟨text₁, .exit 0⟩ ∧ m₂.run o₂ .accounts args₂ = ⟨text₂, .exit 0⟩ ∧
      ListsBoth text text₁ text₂ := by
  obtain ⟨d1, d2, _⟩ := C99_parsed r
  obtain ⟨d1₁, d2₁, _⟩ := C99_parsed r₁
  obtain ⟨d1₂, d2₂, _⟩ := C99_parsed r₂
  obtain ⟨text, a1, a2⟩ := Heard.accounts (js := js) ⟨g, d1⟩ (d2 pg rfl)
  obtain ⟨text₁, b1, b2⟩ := Heard.accounts (js := js) ⟨g₁, d1₁⟩ (d2₁ pg₁ rfl)
  obtain ⟨text₂, c1, c2⟩ := Heard.accounts (js := js) ⟨g₂, d1₂⟩ (d2₂ pg₂ rfl)
  refine ⟨text, text₁, text₂, a1, b1, c1, ListsBoth.of a2 b2 c2 fun a => ?_⟩
  simp only [List.append_eq_nil_iff, hF, hG, false_and, false_or, List.mem_append]
  rw [← and_or_left]
  refine and_congr_right fun _ => ?_
  constructor
  · rintro ⟨f, hf | hf, h⟩
    · exact .inl ⟨f, hf, h⟩
    · exact .inr ⟨f, hf, h⟩
  · rintro (⟨f, hf, h⟩ | ⟨f, hf, h⟩)
    · exact ⟨f, .inl hf, h⟩
    · exact ⟨f, .inr hf, h⟩

/-- The same for payees. -/
theorem C150_payees (h₁ : args₁ ≠ []) (h₂ : args₂ ≠ []) (he : m₁.engine = m.engine) (he₂ : m₂.engine = m.engine) {F₁ F₂ F' : List Filter}
    (g : Setting m o (args₁ ++ args₂) bytes F' admits path) (g₁ : Setting m₁ o₁ args₁ bytes F₁ admits path) (g₂ : Setting m₂ o₂ args₂ bytes F₂ admits path) {pg pg₁ pg₂ : Page}
    (r : Reading m.fs m.lib m.maxOpen path bytes js (.ok pg)) (r₁ : Reading m₁.fs m₁.lib m₁.maxOpen path bytes js (.ok pg₁)) (r₂ : Reading m₂.fs m₂.lib m₂.maxOpen path bytes js (.ok pg₂))
    (ha : ∀ a ∈ args₁ ++ args₂, ∃ p, m.engine.compile (wholePattern a) = some p) :
    ∃ text text₁ text₂ : Str, m.run o .payees (args₁ ++ args₂) = ⟨text, .exit 0⟩ ∧ m₁.run o₁ .payees args₁ = ⟨text₁, .exit 0⟩ ∧ m₂.run o₂ .payees args₂ = ⟨text₂, .exit 0⟩ ∧
      ListsBoth text text₁ text₂ := by
  obtain ⟨d1, d2, _⟩ := C99_parsed r
  obtain ⟨d1₁, d2₁, _⟩ := C99_parsed r₁
  obtain ⟨d1₂, d2₂, _⟩ := C99_parsed r₂
  obtain ⟨text, a1, a2⟩ := Heard.payees (js := js) ⟨g, d1⟩ (d2 pg rfl) ha
  obtain ⟨text₁, b1, b2⟩ := Heard.payees (js := js) ⟨g₁, d1₁⟩ (d2₁ pg₁ rfl) fun a h => by rw [he]; exact ha a (List.mem_append_left _ h)
  obtain ⟨text₂, c1, c2⟩ := Heard.payees (js := js) ⟨g₂, d1₂⟩ (d2₂ pg₂ rfl) fun a h => by rw [he₂]; exact ha a (List.mem_append_right _ h)
  refine ⟨text, text₁, text₂, a1, b1, c1, ListsBoth.of a2 b2 c2 fun a => ?_⟩
  rw [he, he₂]
  unfold PayeeMatch
  simp only [List.append_eq_nil_iff, h₁, h₂, false_and, false_or, List.mem_append]
  rw [← and_or_left]
  refine and_congr_right fun _ => ?_
  constructor
  · rintro ⟨f, hf | hf, h⟩
    · exact .inl ⟨f, hf, h⟩
    · exact .inr ⟨f, hf, h⟩
  · rintro (⟨f, hf, h⟩ | ⟨f, hf, h⟩)
    · exact ⟨f, .inl hf, h⟩
    · exact ⟨f, .inr hf, h⟩

/-- `print` prints a transaction as often as it is printed for some of the arguments: what both parts ask for is not printed twice. -/
theorem C150_print (hF : F ≠ []) (hG : G ≠ [])
    (g : Setting m o args bytes (F ++ G) admits path) (g₁ : Setting m₁ o₁ args₁ bytes F admits path) (g₂ : Setting m₂ o₂ args₂ bytes G admits path) {pg pg₁ pg₂ : Page}
    (r : Reading m.fs m.lib m.maxOpen path bytes js (.ok pg)) (r₁ : Reading m₁.fs m₁.lib m₁.maxOpen path bytes js (.ok pg₁)) (r₂ : Reading m₂.fs m₂.lib m₂.maxOpen path bytes js (.ok pg₂)) :
    ∃ ts ts₁ ts₂ : List Transaction, m.run o .print args = ⟨(ts.map fun t => t.format ++ str "\n").flatten, .exit 0⟩ ∧
      m₁.run o₁ .print args₁ = ⟨(ts₁.map fun t => t.format ++ str "\n").flatten, .exit 0⟩ ∧ m₂.run o₂ .print args₂ = ⟨(ts₂.map fun t => t.format ++ str "\n").flatten, .exit 0⟩ ∧
      ∀ t, ts.count t = max (ts₁.count t) (ts₂.count t) := by
  obtain ⟨d1, d2, _⟩ := C99_parsed r
  obtain ⟨d1₁, d2₁, _⟩ := C99_parsed r₁
  obtain ⟨d1₂, d2₂, _⟩ := C99_parsed r₂
  obtain ⟨ts, a1, _, a3⟩ := Heard.print (js := js) ⟨g, d1⟩ (d2 pg rfl)
  obtain ⟨ts₁, b1, _, b3⟩ := Heard.print (js := js) ⟨g₁, d1₁⟩ (d2₁ pg₁ rfl)
  obtain ⟨ts₂, c1, _, c3⟩ := Heard.print (js := js) ⟨g₂, d1₂⟩ (d2₂ pg₂ rfl)
  refine ⟨ts, ts₁, ts₂, a3, b3, c3, fun t => ?_⟩
  rw [a1.count_eq, b1.count_eq, c1.count_eq, ← count_filter_or]
  congr 1
  refine List.filter_congr fun u _ => ?_
  rw [decide_eq_decide]
  exact wantedBy_two hF hG u

/-- `statistics` counts what is asked for by some argument, and once: at least what either part of the arguments counts and at most the sum, which is reached if no transaction is asked for by
both; files are those of both. -/
theorem C150_statistics (hF : F ≠ []) (hG : G ≠ [])
    (g : Setting m o args bytes (F ++ G) admits path) (g₁ : Setting m₁ o₁ args₁ bytes F admits path) (g₂ : Setting m₂ o₂ args₂ bytes G admits path) {pg pg₁ pg₂ : Page}
    (r : Reading m.fs m.lib m.maxOpen path bytes js (.ok pg)) (r₁ : Reading m₁.fs m₁.lib m₁.maxOpen path bytes js (.ok pg₁)) (r₂ : Reading m₂.fs m₂.lib m₂.maxOpen path bytes js (.ok pg₂))
    (hs₁ : ¬ Command.statistics.Short F admits (meanings js)) (hs₂ : ¬ Command.statistics.Short G admits (meanings js))
    (hn₁ : ∃ t ∈ asked admits (meanings js), WantedBy F t) (hn₂ : ∃ t ∈ asked admits (meanings js), WantedBy G t) :
    ∃ f f₁ f₂ : Figures, m.run o .statistics args = ⟨(f.lines m.humanize).flatMap (· ++ str "\n"), .exit 0⟩ ∧ m₁.run o₁ .statistics args₁ = ⟨(f₁.lines m₁.humanize).flatMap (· ++ str "\n"), .exit 0⟩ ∧
      m₂.run o₂ .statistics args₂ = ⟨(f₂.lines m₂.humanize).flatMap (· ++ str "\n"), .exit 0⟩ ∧
      max f₁.count f₂.count ≤ f.count ∧ f.count ≤ f₁.count + f₂.count ∧ ((∀ t ∈ asked admits (meanings js), ¬ (WantedBy F t ∧ WantedBy G t)) → f.count = f₁.count + f₂.count) ∧
      (∀ a, a ∈ f.files ↔ a ∈ f₁.files ∨ a ∈ f₂.files) ∧
      ((∀ t ∈ asked admits (meanings js), ¬ t.date.isZero) →
        f.first.dayNumber = min f₁.first.dayNumber f₂.first.dayNumber ∧ f.last.dayNumber = max f₁.last.dayNumber f₂.last.dayNumber) := by
  obtain ⟨d1, d2, _⟩ := C99_parsed r
  obtain ⟨d1₁, d2₁, _⟩ := C99_parsed r₁
  obtain ⟨d1₂, d2₂, _⟩ := C99_parsed r₂
  have hs : ¬ Command.statistics.Short (F ++ G) admits (meanings js) := by
    rintro ⟨p, hp, h⟩
    obtain ⟨t, ht, hp⟩ := List.mem_flatMap.1 hp
    rcases selection_mem_two hF hp with hp | hp
    · exact hs₁ ⟨p, List.mem_flatMap.2 ⟨t, ht, hp⟩, h⟩
    · exact hs₂ ⟨p, List.mem_flatMap.2 ⟨t, ht, hp⟩, h⟩
  obtain ⟨text, a1, a2⟩ := Heard.statistics (js := js) ⟨g, d1⟩ (d2 pg rfl) hs
  obtain ⟨text₁, b1, b2⟩ := Heard.statistics (js := js) ⟨g₁, d1₁⟩ (d2₁ pg₁ rfl) hs₁
  obtain ⟨text₂, c1, c2⟩ := Heard.statistics (js := js) ⟨g₂, d1₂⟩ (d2₂ pg₂ rfl) hs₂
  have hmem : ∀ (K : List Filter) (tf : Transaction × Str), tf ∈ wantedIn K admits js → tf.1 ∈ asked admits (meanings js) := fun K tf htf => by
    have e := attributed_fst (fun t => decide (WantedBy K t)) admits js
    simp only [decide_eq_true_eq] at e
    have := List.mem_map_of_mem (f := Prod.fst) htf
    rw [wantedIn, e] at this
    exact (List.mem_filter.1 this).1
  have hne : ∀ K : List Filter, (∃ t ∈ asked admits (meanings js), WantedBy K t) → wantedIn K admits js ≠ [] := fun K ⟨t, ht, hw⟩ h => by
    have e := attributed_fst (fun t => decide (WantedBy K t)) admits js
    simp only [decide_eq_true_eq] at e
    rw [wantedIn] at h
    rw [h, List.map_nil] at e
    exact absurd (List.mem_filter.2 ⟨ht, by simpa using hw⟩) (e ▸ List.not_mem_nil)
  have hW : wantedIn (F ++ G) admits js = (attributed js).filter fun tf => decide (admits tf.1.date = true ∧ WantedBy F tf.1) || decide (admits tf.1.date = true ∧ WantedBy G tf.1) := by
    refine List.filter_congr fun tf _ => ?_
    rw [Bool.eq_iff_iff]
    simp only [decide_eq_true_eq, Bool.or_eq_true]
    rw [wantedBy_two hF hG, and_or_left]
  have hor : ∀ tf, tf ∈ wantedIn (F ++ G) admits js ↔ tf ∈ wantedIn F admits js ∨ tf ∈ wantedIn G admits js := fun tf => by
    rw [hW]
    unfold wantedIn
    simp only [List.mem_filter, Bool.or_eq_true, and_or_left]
  have hne₁ := hne F hn₁
  have hne₂ := hne G hn₂
  have hne₀ : wantedIn (F ++ G) admits js ≠ [] := by
    obtain ⟨x, hx⟩ := List.exists_mem_of_ne_nil _ hne₁
    exact List.ne_nil_of_mem ((hor x).2 (.inl hx))
  rw [if_neg hne₀] at a2
  rw [if_neg hne₁] at b2
  rw [if_neg hne₂] at c2
  obtain ⟨f, S, rfl⟩ := a2
  obtain ⟨f₁, S₁, rfl⟩ := b2
  obtain ⟨f₂, S₂, rfl⟩ := c2
  obtain ⟨l1, l2, l3⟩ := length_filter_or (fun tf : Transaction × Str => decide (admits tf.1.date = true ∧ WantedBy F tf.1)) (fun tf => decide (admits tf.1.date = true ∧ WantedBy G tf.1)) (attributed js)
  rw [← hW] at l1 l2 l3
  refine ⟨f, f₁, f₂, a1, b1, c1, ?_, ?_, fun h => ?_, fun a => ?_, fun hz => ?_⟩
  · rw [S.count, S₁.count, S₂.count]; exact l1
  · rw [S.count, S₁.count, S₂.count]; exact l2
  · rw [S.count, S₁.count, S₂.count]
    refine l3 fun tf htf q => ?_
    simp only [decide_eq_true_eq] at q
    exact h tf.1 (hmem F tf (List.mem_filter.2 ⟨htf, by simpa using q.1⟩)) ⟨q.1.2, q.2.2⟩
  · rw [S.files.2, S₁.files.2, S₂.files.2]
    simp only [hor, or_and_right, exists_or]
  · have z : ∀ K : List Filter, ∀ tf ∈ wantedIn K admits js, ¬ tf.1.date.isZero := fun K tf htf => hz _ (hmem K tf htf)
    obtain ⟨⟨x, x1, x2⟩, x3⟩ := S.first (z _)
    obtain ⟨⟨x', x1', x2'⟩, x3'⟩ := S₁.first (z _)
    obtain ⟨⟨x'', x1'', x2''⟩, x3''⟩ := S₂.first (z _)
    obtain ⟨⟨y, y1, y2⟩, y3⟩ := S.last (z _)
    obtain ⟨⟨y', y1', y2'⟩, y3'⟩ := S₁.last (z _)
    obtain ⟨⟨y'', y1'', y2''⟩, y3''⟩ := S₂.last (z _)
    have u1 := x3 x' ((hor _).2 (.inl x1'))
    have u2 := x3 x'' ((hor _).2 (.inr x1''))
    have u3 := y3 y' ((hor _).2 (.inl y1'))
    have u4 := y3 y'' ((hor _).2 (.inr y1''))
    rw [x2'] at u1
    rw [x2''] at u2
    rw [y2'] at u3
    rw [y2''] at u4
    constructor
    · rcases (hor _).1 x1 with h | h
      · have := x3' x h
        rw [x2] at this
        omega
      · have := x3'' x h
        rw [x2] at this
        omega
    · rcases (hor _).1 y1 with h | h
      · have := y3' y h
        rw [y2] at this
        omega
      · have := y3'' y h
        rw [y2] at this
        omega

end

/-! ### Witnesses -/

/-- An engine for which patterns match at the end, with or without "(?i)" before them. -/
def suffixMachine : Machine :=
  { wholeMachine with
    engine := ⟨fun p => some fun s => (if (str "(?i)").isPrefixOf p then p.drop 4 else p).isSuffixOf s⟩
    sortTransactions := List.insertionSort fun a b => ¬ b.date.before a.date }

set_option maxRecDepth 100000 in
/-- Accounts and payees for two arguments. -/
example :
    letI := asciiUnicode
    suffixMachine.run { file := str "f" } .accounts [str "Food", str "Bank"] = ⟨str "Assets:Bank\nExpenses:Food\n", .exit 0⟩ ∧
    suffixMachine.run { file := str "f" } .accounts [str "Food"] = ⟨str "Expenses:Food\n", .exit 0⟩ ∧
    suffixMachine.run { file := str "f" } .accounts [str "Bank"] = ⟨str "Assets:Bank\n", .exit 0⟩ ∧
    suffixMachine.run { file := str "f" } .payees [str "op", str "y"] = ⟨str "pay\nshop\n", .exit 0⟩ ∧
    suffixMachine.run { file := str "f" } .payees [str "op"] = ⟨str "shop\n", .exit 0⟩ := by
  decide +kernel

set_option maxRecDepth 100000 in
/-- Both arguments ask for the first transaction, which is printed once. -/
example :
    letI := asciiUnicode
    suffixMachine.run { file := str "f" } .print [str "Food", str "Bank"] = suffixMachine.run { file := str "f" } .print [str "Bank"] ∧
    suffixMachine.run { file := str "f" } .print [str "Food", str "Bank"] ≠ suffixMachine.run { file := str "f" } .print [str "Food"] ∧
    suffixMachine.run { file := str "f" } .print [str "Food"] = ⟨str "2020-01-02   shop\n    Expenses:Food    £2.50\n    Assets:Bank    £-2.50\n\n", .exit 0⟩ := by
  decide +kernel

/-- The transactions asked for by Food and by Bank are not different ones, so that the numbers of transactions do not add up. -/
example : (∃ t ∈ transactionsOf wholeMeaning, WantedBy [wholeFilter] t ∧ WantedBy [bankFilter] t) ∧
    ((transactionsOf wholeMeaning).filter fun t => WantedBy [wholeFilter, bankFilter] t).length = 2 ∧ ((transactionsOf wholeMeaning).filter fun t => WantedBy [wholeFilter] t).length = 1 ∧
    ((transactionsOf wholeMeaning).filter fun t => WantedBy [bankFilter] t).length = 2 := by
  decide +kernel

end Gledger
