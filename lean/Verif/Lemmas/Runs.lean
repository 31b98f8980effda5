/-
For C101: complaints about date flags, and handlers that agree.
-/
import Verif.Spec.Runs
import Verif.Props.Journals
import Verif.Lemmas.Spots
import Verif.Lemmas.Prints

namespace Gledger

/-! ### Complaints about date flags -/

theorem encode_length (s : Str) : (encode s).length = utf8Len s := by
  induction s with
  | nil => rfl
  | cons c cs ih =>
    show (String.utf8EncodeChar c ++ encode cs).length = c.utf8Size + utf8Len cs
    rw [List.length_append, ih, String.length_utf8EncodeChar]

theorem split_count (sep : Char) (s : Str) : (split sep s).length = s.count sep + 1 := by
  induction s with
  | nil => rfl
  | cons c cs ih =>
    rw [split, List.count_cons]
    by_cases h : c = sep
    · simp [h, ih]
    · rw [if_neg h]
      have h' : (c == sep) = false := by simpa using h
      rw [h']
      cases hs : split sep cs with
      | nil => rw [hs] at ih; simp at ih
      | cons w ws => rw [hs] at ih; simpa using ih

theorem occurs_inside (c : Char) (s : Str) : occursAfterFirst c s = true ↔ c ∈ s ∧ s.head? ≠ some c := by
  cases s with
  | nil => simp [occursAfterFirst]
  | cons a as =>
    simp only [occursAfterFirst, Bool.and_eq_true, decide_eq_true_eq, List.contains_eq_mem, List.mem_cons, List.head?_cons, ne_eq, Option.some.injEq]
    exact ⟨fun ⟨h1, h2⟩ => ⟨Or.inr h2, h1⟩, fun ⟨h1, h2⟩ => ⟨h2, h1.resolve_left fun h => h2 h.symm⟩⟩

theorem components_complain {year : Nat} {flag : Str} {sep : Char} (lib : Err → Str) (hs : SeparatedBy flag sep) {x : Err}
    (h : parseComponents year flag sep = .error x) : FlagComplaint lib flag (x.text lib) := by
  have hc := split_count sep flag
  have h1 : 1 ≤ flag.count sep := List.count_pos_iff.2 hs.1.1
  unfold parseComponents at h
  split at h
  · rename_i e
    rw [e] at hc
    simp at hc
    omega
  · rename_i e
    rw [e] at hc
    simp at hc
    have hx : x = .timeParse flag := by
      split at h
      · unfold parseYearMonth at h
        split at h <;> cases h
        rfl
      · unfold parseMonthDay at h
        split at h <;> cases h
        rfl
    subst hx
    exact .notADay hs (by omega)
  · rename_i e
    rw [e] at hc
    simp at hc
    have hx : x = .timeParse flag := by
      unfold parseYearMonthDay at h
      split at h <;> cases h
      rfl
    subst hx
    exact .notADay hs (by omega)
  · rename_i n1 n2 n3
    cases h
    refine .tooMany hs ?_
    rcases hl : split sep flag with _ | ⟨a, _ | ⟨b, _ | ⟨c, _ | ⟨d, r⟩⟩⟩⟩
    · rw [hl] at hc; simp at hc
    · exact absurd hl (n1 a)
    · exact absurd hl (n2 a b)
    · exact absurd hl (n3 a b c)
    · rw [hl] at hc; simp at hc; omega

theorem flag_complaint {year : Nat} {flag : Str} (lib : Err → Str) {x : Err} (h : parseSmartDate year flag = .error x) :
    FlagComplaint lib flag (x.text lib) := by
  unfold parseSmartDate at h
  split at h
  · rename_i h1
    exact components_complain lib ⟨(occurs_inside _ _).1 h1, Or.inl rfl⟩ h
  rename_i n1
  split at h
  · rename_i h1
    exact components_complain lib ⟨(occurs_inside _ _).1 h1, Or.inr (Or.inl ⟨rfl, mt (occurs_inside _ _).2 n1⟩)⟩ h
  rename_i n2
  split at h
  · rename_i h1
    exact components_complain lib ⟨(occurs_inside _ _).1 h1, Or.inr (Or.inr ⟨rfl, mt (occurs_inside _ _).2 n1, mt (occurs_inside _ _).2 n2⟩)⟩ h
  rename_i n3
  have hn : ∀ sep, ¬ SeparatedBy flag sep := by
    rintro sep ⟨h1, rfl | ⟨rfl, _⟩ | ⟨rfl, _⟩⟩
    · exact n1 ((occurs_inside _ _).2 h1)
    · exact n2 ((occurs_inside _ _).2 h1)
    · exact n3 ((occurs_inside _ _).2 h1)
  unfold parseYear at h
  split at h
  · rename_i hl
    cases h
    exact .notAYear hn (by rw [encode_length]; exact hl)
  · rename_i hl
    split at h <;> cases h
    exact .notANumber hn (by rw [encode_length]; simpa using hl)

theorem badFlag_error {year : Nat} (h0 : 1000 ≤ year ∧ year ≤ 9999) (flag : Str) : BadFlag year flag ↔ flag ≠ [] ∧ ∃ x, parseSmartDate year flag = .error x := by
  refine and_congr_right fun _ => ?_
  cases h : parseSmartDate year flag with
  | ok d =>
    have := (C48_accepted year h0.1 h0.2 flag d).1 h
    exact ⟨fun hn => absurd this (hn d), fun ⟨x, hx⟩ => by cases hx⟩
  | error x =>
    refine ⟨fun _ => ⟨x, rfl⟩, fun _ d hd => ?_⟩
    rw [(C48_accepted year h0.1 h0.2 flag d).2 hd] at h
    cases h

theorem goodFlag_spells {year : Nat} (h0 : 1000 ≤ year ∧ year ≤ 9999) {flag : Str} (h : ¬ BadFlag year flag) : ∃ d, FlagSpells year flag d := by
  unfold BadFlag at h
  push Not at h
  by_cases hf : flag = []
  · exact ⟨none, Or.inl ⟨hf, rfl⟩⟩
  · obtain ⟨d, hd⟩ := h hf
    exact ⟨some d, Or.inr ⟨h0, d, rfl, hd⟩⟩

/-- A faulty flag is an error in the environment of the handlers, with that complaint. -/
theorem faulty_error {m : Machine} {o : Options} {flag : Str} (h0 : 1000 ≤ m.nowYear ∧ m.nowYear ≤ 9999) (h : FaultyFlag m o flag) (filters : List Filter) :
    ∃ x, (m.env o filters).dateError = some x ∧ FlagComplaint m.lib flag (x.text m.lib) := by
  obtain ⟨hc, h⟩ := h
  have hcur : (m.env o filters).current = false := hc
  unfold Env.dateError
  rw [hcur]
  simp only [Bool.false_eq_true, if_false]
  show ∃ x, Option.orElse (if o.beginDate = [] then none else _) _ = _ ∧ _
  rcases h with ⟨rfl, h⟩ | ⟨h1, rfl, h⟩
  · obtain ⟨h2, x, h3⟩ := (badFlag_error h0 _).1 h
    refine ⟨x, ?_, flag_complaint m.lib h3⟩
    rw [if_neg h2]
    show Option.orElse (match parseSmartDate m.nowYear o.beginDate with | .ok _ => none | .error err => some err) _ = _
    rw [h3]
    rfl
  · obtain ⟨h2, x, h3⟩ := (badFlag_error h0 _).1 h
    refine ⟨x, ?_, flag_complaint m.lib h3⟩
    have hb : (if o.beginDate = [] then none else match parseSmartDate m.nowYear o.beginDate with | .ok _ => none | .error err => some err) = none := by
      by_cases hb : o.beginDate = []
      · rw [if_pos hb]
      · rw [if_neg hb]
        cases hp : parseSmartDate m.nowYear o.beginDate with
        | ok d => rfl
        | error y => exact absurd ((badFlag_error h0 _).2 ⟨hb, y, hp⟩) h1
    show Option.orElse (if o.beginDate = [] then none else match parseSmartDate m.nowYear o.beginDate with | .ok _ => none | .error err => some err) _ = _
    rw [hb]
    show (if o.endDate = [] then none else match parseSmartDate m.nowYear o.endDate with | .ok _ => none | .error err => some err) = _
    rw [if_neg h2, h3]

/-- Flags that are not faulty ask for some days. -/
theorem days_exist {m : Machine} (hm : m.Sane) (o : Options) (h : ∀ flag, ¬ FaultyFlag m o flag) : ∃ admits, DaysAsked m o admits := by
  classical
  cases hc : o.current with
  | true =>
    obtain ⟨t0, day, t1, t2, t3, t4⟩ := hm.tomorrow
    exact ⟨fun d => decide (1 ≤ d.year ∧ if m.tomorrow = day.instant then d.Earlier day else ¬ day.Earlier d),
      Or.inr ⟨hc, t0, day, t1, t2, t3, t4, fun d => decide_eq_true_iff⟩⟩
  | false =>
    have hb : ¬ BadFlag m.nowYear o.beginDate := fun hb => h _ ⟨hc, Or.inl ⟨rfl, hb⟩⟩
    have hn : ¬ BadFlag m.nowYear o.endDate := fun hn => h _ ⟨hc, Or.inr ⟨hb, rfl, hn⟩⟩
    obtain ⟨b, hb⟩ := goodFlag_spells hm.year hb
    obtain ⟨n, hn⟩ := goodFlag_spells hm.year hn
    exact ⟨fun d => decide ((b = none → 1 ≤ d.year) ∧ (∀ x ∈ b, if 0 ≤ m.offset x then ¬ d.Earlier x else x.Earlier d) ∧
        ∀ x ∈ n, (x = ⟨1, 1, 1⟩ ∧ m.offset x = 0) ∨ if 0 ≤ m.offset x then d.Earlier x else ¬ x.Earlier d),
      Or.inl ⟨hc, hm.offsets, b, n, hb, hn, fun d => decide_eq_true_iff⟩⟩

theorem undated_fine (m : Machine) (o : Options) (flag : Str) : ¬ FaultyFlag m o.undated flag := by
  rintro ⟨_, ⟨rfl, h, _⟩ | ⟨_, rfl, h, _⟩⟩ <;> exact h rfl

/-! ### Handlers that agree -/

section
variable {σ : Type}

theorem replay_same {H H' : Handlers σ} {calls : List Call} (h : ∀ c ∈ calls, ∀ u, H.call u c = H'.call u c) (u : σ) :
    H.replay calls u = H'.replay calls u := by
  induction calls generalizing u with
  | nil => rfl
  | cons c cs ih =>
    rw [Handlers.replay, Handlers.replay, h c (by simp) u]
    obtain ⟨v, _ | g⟩ := H'.call u c
    · exact ih (fun c' hc => h c' (by simp [hc])) v
    · rfl

theorem prints_same {H H' : Handlers σ} {out out' : σ → Transaction → Str} {pout pout' : σ → PeriodicTransaction → Str} {calls : List Call}
    (h : ∀ c ∈ calls, ∀ u, H.call u c = H'.call u c) (h' : ∀ c ∈ calls, ∀ u, H.callOut out pout u c = H'.callOut out' pout' u c) (u : σ) :
    H.prints out pout calls u = H'.prints out' pout' calls u := by
  induction calls generalizing u with
  | nil => rfl
  | cons c cs ih =>
    rw [Handlers.prints, Handlers.prints, h c (by simp) u, h' c (by simp) u]
    obtain ⟨v, _ | g⟩ := H'.call u c
    · simp only
      rw [ih (fun c' hc => h c' (by simp [hc])) (fun c' hc => h' c' (by simp [hc])) v]
    · rfl

theorem prints_stops {H : Handlers σ} {out : σ → Transaction → Str} {pout : σ → PeriodicTransaction → Str} {a : List Call} (b : List Call) {u : σ}
    (h : (H.replay a u).2 ≠ none) : H.prints out pout (a ++ b) u = H.prints out pout a u := by
  induction a generalizing u with
  | nil => exact absurd rfl h
  | cons c cs ih =>
    rw [Handlers.replay] at h
    rw [List.cons_append, Handlers.prints, Handlers.prints]
    generalize H.call u c = r at h
    obtain ⟨v, _ | g⟩ := r
    · simp only
      rw [ih h]
    · rfl

theorem replay_stops {H : Handlers σ} {a : List Call} (b : List Call) {u : σ} {g : Failure} (h : (H.replay a u).2 = some g) :
    (H.replay (a ++ b) u).2 = some g := by
  rw [replay_append]
  generalize H.replay a u = r at h
  obtain ⟨v, o⟩ := r
  cases h
  rfl

/-- Handlers that agree about a journal, and fail only with a panic, give the same result of parsing it. -/
theorem runParse_panics [Unicode] {H H' : Handlers σ} {fs : FileSystem} {maxOpen : Nat} {bytes : List UInt8} {path : Str} {u : σ}
    (h : H.replay (delivered fs maxOpen bytes path) u = H'.replay (delivered fs maxOpen bytes path) u)
    (hp : ∀ g, (H.replay (delivered fs maxOpen bytes path) u).2 = some g → ∃ p, g = .panic p) :
    runParse fs maxOpen bytes path H u = runParse fs maxOpen bytes path H' u := by
  obtain ⟨a1, a2, a3⟩ := runParse_cases fs maxOpen bytes path H u
  obtain ⟨b1, b2, b3⟩ := runParse_cases fs maxOpen bytes path H' u
  cases hr : (H.replay (delivered fs maxOpen bytes path) u).2 with
  | none =>
    cases hj : rejection fs maxOpen bytes path with
    | none => rw [a2 hr hj, b2 (h ▸ hr) hj, h]
    | some f => rw [a1 hr f hj, b1 (h ▸ hr) f hj]
  | some g =>
    obtain ⟨p, rfl⟩ := hp g hr
    obtain ⟨f, f1, f2⟩ := a3 _ hr
    obtain ⟨f', f1', f2'⟩ := b3 _ (h ▸ hr)
    rw [f2, f2']
    cases f <;> cases f1
    cases f' <;> cases f1'
    rfl

/-- The parser fails where the paragraph is complete whose handler fails. -/
theorem reading_breaks [Unicode] {fs : FileSystem} {lib : Err → Str} {opens : Nat} {path : Str} {bytes : List UInt8} {js : List (Meant × Str)}
    {out : Except Report Page} (h : Reading fs lib opens path bytes js out) {i : Nat} {x : Meant × Str} (hx : js[i]? = some x) :
    ∃ via place, SpotIn fs lib opens path bytes i via place ∧ ∀ (σ : Type) (H : Handlers σ) (u : σ),
      ∃ before c, List.Forall₂ (fun (x : Meant × Str) c => x.1.Call x.2 c) (js.take i) before ∧ x.1.Call x.2 c ∧
        ∀ u' u'' y, H.replay before u = (u', none) → H.call u' c = (u'', some (.err y)) →
          (parse fs H opens bytes path (newParser u)).1.user = u'' ∧
          (parse fs H opens bytes path (newParser u)).2 = some (.err (.errorAt (nested (placed y place) via))) := by
  obtain ⟨via, place, h1, h2⟩ := course_breaks h ⟨(rootStart (σ := Unit) () path).builder, rfl⟩ i x hx
  refine ⟨via, place, h1, fun σ H u => ?_⟩
  obtain ⟨before, c, b1, b2, b3⟩ := h2 σ H (rootStart u path) rfl rfl rfl
  refine ⟨before, c, b1, b2, fun u' u'' y r1 r2 => ?_⟩
  obtain ⟨k1, k2⟩ := b3 u' u'' (.err y) r1 r2
  rw [parse_new]
  generalize (feedLines (parseItem fs H opens) path 1 (readLines bytes) (rootStart u path)).andThen (parseItem fs H opens .eofItem []) = r at k1 k2
  obtain ⟨st, o⟩ := r
  simp only at k1 k2
  subst k2
  exact ⟨k1, rfl⟩

end

end Gledger
