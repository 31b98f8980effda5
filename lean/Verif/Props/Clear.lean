/-
The commodities of all postings of a journal, those of budget entries too, can be told from the numbers after them; and file names stay on one line.
-/
import Verif.Props.Alike

set_option maxRecDepth 100000

namespace Gledger

/-- The commodity of the amount, if there is one, is legible. -/
def Posting.Clear (p : Posting) : Prop := ∀ a ∈ p.amount, LegibleCommodity a.commodity

/-- So far. -/
def Page.Clear : Page → Prop
  | .closed _ => True
  | .entry _ ps => ∀ p ∈ ps, p.Clear
  | .budget _ ps => ∀ p ∈ ps, p.Clear

/-- The commodity taken from a line is legible. -/
def Line.Clear : Line → Prop
  | .posting _ amount => ∀ a ∈ amount, LegibleCommodity a.1
  | _ => True

/-- The postings of a paragraph. -/
def Meant.postings : Meant → List Posting
  | .transaction t => t.postings
  | .budget _ ps => ps

theorem clear_bare {p : Posting} (h : p.amount = none) : p.Clear := by
  intro a ha
  rw [h] at ha
  cases ha

theorem lineIs_clear [Unicode] {l : Str} {L : Line} (h : LineIs l L) (hl : '\n' ∉ l) : L.Clear := by
  cases h with
  | posting _ _ _ => intro a ha; cases ha
  | @amount ws account gap commodity ws2 number t _ _ _ hc hw _ _ _ _ _ hs =>
    intro a ha
    cases ha
    apply commodityText_legible
    · have key : commodity = [] → ws2 = [] := by
        rintro rfl
        by_contra hne
        cases ws2 with
        | nil => exact hne rfl
        | cons c ws2 =>
          have h1 := hs c rfl
          have h2 : isSpace c = true := hw c (by simp)
          rw [h1] at h2
          cases h2
      simp only
      split
      · refine ⟨?_, fun c h => hc c (List.dropLast_subset _ h), fun c h => Or.inl (hc c (List.mem_of_getLast? h))⟩
        cases commodity with
        | nil => intro c h; cases h
        | cons x xs => intro c h; exact hs c h
      · rename_i hn
        have hne : commodity ≠ [] := fun e => hn (key e)
        refine ⟨?_, ?_, ?_⟩
        · cases commodity with
          | nil => exact absurd rfl hne
          | cons x xs => intro c h; exact hs c h
        · rw [List.dropLast_concat]; exact hc
        · intro c h
          rw [List.getLast?_concat, Option.mem_def, Option.some.injEq] at h
          exact Or.inr h.symm
    · intro hm
      simp only at hm
      split at hm
      · exact hl (by simp [hm])
      · rw [List.mem_append] at hm
        rcases hm with hm | hm
        · exact hl (by simp [hm])
        · exact absurd hm (by decide)
  | _ => trivial

theorem inferred_clear {ps : List Posting} (h : ∀ p ∈ ps, p.Clear) : ∀ p ∈ inferred ps, p.Clear := by
  unfold inferred
  split
  · exact h
  · intro p hp
    obtain ⟨q, hq, rfl⟩ := List.mem_map.1 hp
    split
    · intro a ha
      rw [Option.mem_def, Option.some.injEq] at ha
      subst ha
      show LegibleCommodity (lastCommodity ps)
      unfold lastCommodity
      cases hc : (writtenCommodities ps).getLast? with
      | none => exact legible_nil
      | some c =>
        have := List.mem_of_getLast? hc
        unfold writtenCommodities at this
        simp only [List.mem_filter, List.mem_filterMap, Option.map_eq_some_iff] at this
        obtain ⟨⟨r, hr, b, hb, rfl⟩, _⟩ := this
        exact h r hr b hb
    · exact h q hq

theorem page_postings_clear {pg : Page} (h : pg.Clear) : ∀ p ∈ pg.postings, p.Clear := by
  cases pg with
  | closed b => intro p hp; cases hp
  | entry t ps =>
    intro p hp
    rw [Page.postings] at hp
    split at hp
    · rw [List.mem_singleton] at hp; subst hp; exact clear_bare rfl
    · exact h p hp
  | budget m ps =>
    intro p hp
    rw [Page.postings] at hp
    split at hp
    · rw [List.mem_singleton] at hp; subst hp; exact clear_bare rfl
    · exact h p hp

theorem page_kept_clear {pg : Page} (h : pg.Clear) : ∀ p ∈ pg.kept, p.Clear := by
  intro p hp
  cases pg with
  | closed b => cases hp
  | entry t ps => exact page_postings_clear h p (kept_subset hp)
  | budget m ps =>
    rw [Page.kept] at hp
    split at hp
    · exact page_postings_clear h p (kept_subset hp)
    · have := kept_subset hp
      rw [List.mem_append, List.mem_singleton] at this
      rcases this with hq | rfl
      · exact page_postings_clear h p hq
      · exact clear_bare rfl

theorem ends_clear {pg : Page} {ms : List Meant} (he : pg.Ends (.ok ms)) (h : pg.Clear) : ∀ x ∈ ms, ∀ p ∈ x.postings, p.Clear := by
  cases he with
  | complete _ _ =>
    intro x hx
    cases pg with
    | closed b => cases hx
    | entry t ps =>
      rw [Page.meaning, List.mem_singleton] at hx
      subst hx
      exact inferred_clear (page_kept_clear h)
    | budget m ps =>
      rw [Page.meaning, List.mem_singleton] at hx
      subst hx
      exact inferred_clear (page_kept_clear h)

theorem add_clear {pg : Page} {p : Posting} (h : pg.Clear) (hp : p.Clear) : (pg.add p).Clear := by
  cases pg with
  | closed b => trivial
  | _ =>
    intro q hq
    rw [List.mem_append, List.mem_singleton] at hq
    rcases hq with hq | rfl
    · exact h q hq
    · exact hp

theorem noted_clear {ps : List Posting} {p : Posting} {text : Str} (h : ∀ q ∈ ps ++ [p], q.Clear) :
    ∀ q ∈ ps ++ [{ p with comments := p.comments ++ [text] }], q.Clear := by
  intro q hq
  rw [List.mem_append, List.mem_singleton] at hq
  rcases hq with hq | rfl
  · exact h q (by simp [hq])
  · exact h p (by simp)

theorem shut_clear (pg : Page) : pg.shut.Clear := by cases pg <;> trivial

theorem effect_clear {pg : Page} {L : Line} {ms : List Meant} {out : Except Fault Page} (he : Effect pg L ms out) (h : pg.Clear) (hL : L.Clear) :
    (∀ x ∈ ms, ∀ p ∈ x.postings, p.Clear) ∧ ∀ pg', out = .ok pg' → pg'.Clear := by
  cases he with
  | passed => exact ⟨by simp, fun _ e => by cases e; exact h⟩
  | blank he => exact ⟨ends_clear he h, fun _ e => by cases e; exact shut_clear _⟩
  | header he => exact ⟨ends_clear he h, fun _ e => by cases e; intro p hp; cases hp⟩
  | badDate he => exact ⟨ends_clear he h, fun _ e => by cases e⟩
  | shortDate he => exact ⟨ends_clear he h, fun _ e => by cases e⟩
  | budget he => exact ⟨ends_clear he h, fun _ e => by cases e; intro p hp; cases hp⟩
  | badPeriod he => exact ⟨ends_clear he h, fun _ e => by cases e; intro p hp; cases hp⟩
  | entryNote => exact ⟨by simp, fun _ e => by cases e; intro p hp; cases hp⟩
  | postingNote => exact ⟨by simp, fun _ e => by cases e; exact noted_clear h⟩
  | budgetNote => exact ⟨by simp, fun _ e => by cases e; exact noted_clear h⟩
  | posting => exact ⟨by simp, fun _ e => by cases e; exact add_clear h (clear_bare rfl)⟩
  | amount =>
    refine ⟨by simp, fun _ e => ?_⟩
    cases e
    refine add_clear h fun a ha => ?_
    rw [Option.mem_def, Option.some.injEq] at ha
    subst ha
    exact hL _ rfl
  | _ => exact ⟨by simp, fun _ e => by cases e⟩

theorem labelled_clear {label : Str} {ms : List Meant} (h : ∀ x ∈ ms, ∀ p ∈ x.postings, p.Clear) : ∀ x ∈ labelled label ms, ∀ p ∈ x.1.postings, p.Clear := by
  intro x hx
  obtain ⟨y, hy, rfl⟩ := List.mem_map.1 hx
  exact h y hy

theorem course_clear [Unicode] {fs : FileSystem} {lib : Err → Str} {root : Str} {k : Nat} {path label : Str} {n : Nat} {pg : Page} {bytes : List UInt8}
    {js : List (Meant × Str)} {out : Except Report Page} (h : Course fs lib root k path label n pg bytes js out) (hp : pg.Clear) :
    (∀ x ∈ js, ∀ p ∈ x.1.postings, p.Clear) ∧ ∀ pg', out = .ok pg' → pg'.Clear := by
  induction h with
  | done he => exact ⟨labelled_clear (ends_clear he hp), fun _ e => by cases e; exact shut_clear _⟩
  | line hf hl he _ ih =>
    obtain ⟨h1, h2⟩ := effect_clear he hp (lineIs_clear hl (firstLine_newline hf))
    obtain ⟨h3, h4⟩ := ih (h2 _ rfl)
    refine ⟨fun x hx => ?_, h4⟩
    rcases List.mem_append.1 hx with hx | hx
    · exact labelled_clear h1 x hx
    · exact h3 x hx
  | fault hf hl he => exact ⟨labelled_clear (effect_clear he hp (lineIs_clear hl (firstLine_newline hf))).1, fun _ e => by cases e⟩
  | includes _ _ _ _ _ ih1 ih2 =>
    obtain ⟨h1, h2⟩ := ih1 hp
    obtain ⟨h3, h4⟩ := ih2 (h2 _ rfl)
    refine ⟨fun x hx => ?_, h4⟩
    rcases List.mem_append.1 hx with hx | hx
    · exact h1 x hx
    · exact h3 x hx
  | within _ _ _ _ ih => exact ⟨(ih hp).1, fun _ e => by cases e⟩
  | _ => exact ⟨by simp, fun _ e => by cases e⟩

/-- Commodities contain neither digits nor minus signs, and blanks at most at the end, whatever bytes the journal is made of. -/
theorem C65_commodities [Unicode] {fs : FileSystem} {lib : Err → Str} {opens : Nat} {path : Str} {bytes : List UInt8} {js : List (Meant × Str)}
    {out : Except Report Page} (h : Reading fs lib opens path bytes js out) : ∀ x ∈ js, ∀ p ∈ x.1.postings, ∀ a ∈ p.amount, LegibleCommodity a.commodity :=
  (course_clear h trivial).1

theorem splitDir_subset {path : Str} {c : Char} (h : c ∈ splitDir path) : c ∈ path := by
  unfold splitDir at h
  exact List.mem_reverse.1 (List.dropWhile_subset _ (List.mem_reverse.1 h))

theorem course_labels [Unicode] {fs : FileSystem} {lib : Err → Str} {root : Str} {k : Nat} {path label : Str} {n : Nat} {pg : Page} {bytes : List UInt8}
    {js : List (Meant × Str)} {out : Except Report Page} (h : Course fs lib root k path label n pg bytes js out) (hr : '\n' ∉ root) (hp : '\n' ∉ path)
    (hl : '\n' ∉ label) : ∀ x ∈ js, '\n' ∉ x.2 := by
  have plain : ∀ {label : Str} {ms : List Meant}, '\n' ∉ label → ∀ x ∈ labelled label ms, '\n' ∉ x.2 := by
    intro label ms hl x hx
    obtain ⟨y, hy, rfl⟩ := List.mem_map.1 hx
    exact hl
  have there : ∀ {path : Str} {bytes rest : List UInt8} {l name : Str}, '\n' ∉ path → FirstLine bytes (some l) rest → LineIs l (.inclusion name) →
      '\n' ∉ splitDir path ++ name := by
    intro path bytes rest l name hp hf hi hm
    have hn := firstLine_newline hf
    rcases List.mem_append.1 hm with hm | hm
    · exact hp (splitDir_subset hm)
    · cases hi with
      | inclusion => exact hn (by simp [hm])
  induction h with
  | done => exact plain hl
  | line _ _ _ _ ih =>
    intro x hx
    rcases List.mem_append.1 hx with hx | hx
    · exact plain hl x hx
    · exact ih hp hl x hx
  | fault => exact plain hl
  | includes hf hi _ _ _ ih1 ih2 =>
    intro x hx
    rcases List.mem_append.1 hx with hx | hx
    · exact ih1 (there hp hf hi) (there hp hf hi) x hx
    · exact ih2 hp hr x hx
  | within hf hi _ _ ih => exact ih (there hp hf hi) (there hp hf hi)
  | _ => simp

end Gledger
