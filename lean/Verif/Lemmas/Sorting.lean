import Verif.Spec.Reports
import Mathlib.Data.List.Perm.Basic
import Mathlib.Data.List.Lex

/-! Sorting strings. -/

namespace Gledger

theorem char_toNat_inj {a b : Char} (h : a.toNat = b.toNat) : a = b := by
  apply Char.ext
  apply UInt32.ext
  simpa using h

theorem strLe_iff : ∀ a b : Str, strLe a b = true ↔ StrLt a b ∨ a = b := by
  intro a
  induction a with
  | nil =>
    intro b
    cases b with
    | nil => simp [strLe]
    | cons b bs => simp only [strLe, true_iff]; exact Or.inl List.Lex.nil
  | cons a as ih =>
    intro b
    cases b with
    | nil => simp [strLe, StrLt]
    | cons b bs =>
      rw [strLe]
      simp only [Bool.or_eq_true, decide_eq_true_eq, Bool.and_eq_true, ih, List.cons.injEq]
      constructor
      · rintro (h1 | ⟨h1, h2 | h2⟩)
        · exact Or.inl (List.Lex.rel h1)
        · have := char_toNat_inj h1
          subst this
          exact Or.inl (List.Lex.cons h2)
        · exact Or.inr ⟨char_toNat_inj h1, h2⟩
      · rintro (h1 | ⟨rfl, rfl⟩)
        · cases h1 with
          | cons h => exact Or.inr ⟨rfl, Or.inl h⟩
          | rel h => exact Or.inl h
        · exact Or.inr ⟨rfl, Or.inr rfl⟩

theorem StrLt.irrefl : ∀ a : Str, ¬ StrLt a a := by
  intro a
  induction a with
  | nil => intro h; cases h
  | cons a as ih =>
    intro h
    cases h with
    | cons h => exact ih h
    | rel h => exact absurd h (by omega)

theorem StrLt.trans : ∀ {a b c : Str}, StrLt a b → StrLt b c → StrLt a c := by
  intro a
  induction a with
  | nil =>
    intro b c h1 h2
    cases c with
    | nil => cases h2
    | cons c cs => exact List.Lex.nil
  | cons a as ih =>
    intro b c h1 h2
    cases h1 with
    | cons h1 =>
      cases h2 with
      | cons h2 => exact List.Lex.cons (ih h1 h2)
      | rel h2 => exact List.Lex.rel h2
    | rel h1 =>
      cases h2 with
      | cons h2 => exact List.Lex.rel h1
      | rel h2 => exact List.Lex.rel (by omega)

theorem StrLt.connex : ∀ a b : Str, StrLt a b ∨ a = b ∨ StrLt b a := by
  intro a
  induction a with
  | nil =>
    intro b
    cases b with
    | nil => exact Or.inr (Or.inl rfl)
    | cons b bs => exact Or.inl List.Lex.nil
  | cons a as ih =>
    intro b
    cases b with
    | nil => exact Or.inr (Or.inr List.Lex.nil)
    | cons b bs =>
      rcases lt_trichotomy a.toNat b.toNat with h | h | h
      · exact Or.inl (List.Lex.rel h)
      · have := char_toNat_inj h
        subst this
        rcases ih bs with h | h | h
        · exact Or.inl (List.Lex.cons h)
        · exact Or.inr (Or.inl (by rw [h]))
        · exact Or.inr (Or.inr (List.Lex.cons h))
      · exact Or.inr (Or.inr (List.Lex.rel h))

theorem strLe_false {a b : Str} (h : ¬ strLe a b = true) : StrLt b a := by
  rw [strLe_iff] at h
  push Not at h
  rcases StrLt.connex a b with h1 | h1 | h1
  · exact absurd h1 h.1
  · exact absurd h1 h.2
  · exact h1

/-- A strict order has one sorted list for a set. -/
theorem pairwise_unique {α : Type} {r : α → α → Prop} (hirr : ∀ a, ¬ r a a) (htr : ∀ a b c, r a b → r b c → r a c) :
    ∀ {l₁ l₂ : List α}, l₁.Pairwise r → l₂.Pairwise r → (∀ x, x ∈ l₁ ↔ x ∈ l₂) → l₁ = l₂ := by
  intro l₁
  induction l₁ with
  | nil =>
    intro l₂ _ _ hm
    cases l₂ with
    | nil => rfl
    | cons b l₂ => exact absurd ((hm b).2 (by simp)) (by simp)
  | cons a l₁ ih =>
    intro l₂ h1 h2 hm
    cases l₂ with
    | nil => exact absurd ((hm a).1 (by simp)) (by simp)
    | cons b l₂ =>
      rw [List.pairwise_cons] at h1 h2
      have hab : a = b := by
        by_contra hne
        have h3 : b ∈ l₁ := by
          rcases List.mem_cons.1 ((hm b).2 (by simp)) with h | h
          · exact absurd h.symm hne
          · exact h
        have h4 : a ∈ l₂ := by
          rcases List.mem_cons.1 ((hm a).1 (by simp)) with h | h
          · exact absurd h hne
          · exact h
        exact hirr a (htr a b a (h1.1 b h3) (h2.1 a h4))
      subst hab
      rw [ih h1.2 h2.2 fun x => ?_]
      constructor
      · intro hx
        rcases List.mem_cons.1 ((hm x).1 (by simp [hx])) with h | h
        · subst h; exact absurd (h1.1 x hx) (hirr x)
        · exact h
      · intro hx
        rcases List.mem_cons.1 ((hm x).2 (by simp [hx])) with h | h
        · subst h; exact absurd (h2.1 x hx) (hirr x)
        · exact h

theorem insertStr_perm (s : Str) (l : List Str) : (insertStr s l).Perm (s :: l) := by
  induction l with
  | nil => exact List.Perm.refl _
  | cons t ts ih =>
    rw [insertStr]
    split
    · exact List.Perm.refl _
    · exact (List.Perm.cons t ih).trans (List.Perm.swap s t ts)

theorem sortStrings_perm (l : List Str) : (sortStrings l).Perm l := by
  induction l with
  | nil => exact List.Perm.refl _
  | cons s ss ih => exact (insertStr_perm s _).trans (List.Perm.cons s ih)

theorem insertStr_sorted (s : Str) (l : List Str) (hl : l.Pairwise fun a b => StrLt a b ∨ a = b) :
    (insertStr s l).Pairwise fun a b => StrLt a b ∨ a = b := by
  induction l with
  | nil => simp [insertStr]
  | cons t ts ih =>
    rw [List.pairwise_cons] at hl
    rw [insertStr]
    split
    · rename_i h
      rw [strLe_iff] at h
      refine List.Pairwise.cons (fun u hu => ?_) (List.Pairwise.cons hl.1 hl.2)
      rcases List.mem_cons.1 hu with rfl | hu2
      · exact h
      · rcases h with h | rfl
        · rcases hl.1 u hu2 with h2 | rfl
          · exact Or.inl (h.trans h2)
          · exact Or.inl h
        · exact hl.1 u hu2
    · rename_i h
      refine List.Pairwise.cons (fun u hu => ?_) (ih hl.2)
      rcases List.mem_cons.1 ((insertStr_perm s ts).mem_iff.1 hu) with rfl | hu
      · exact Or.inl (strLe_false h)
      · exact hl.1 u hu

theorem sortStrings_sorted (l : List Str) : (sortStrings l).Pairwise fun a b => StrLt a b ∨ a = b := by
  induction l with
  | nil => exact List.Pairwise.nil
  | cons s ss ih => exact insertStr_sorted s _ ih

theorem sortStrings_strict {l : List Str} (hn : l.Nodup) : (sortStrings l).Pairwise StrLt := by
  have h1 := sortStrings_sorted l
  have h2 : (sortStrings l).Nodup := (sortStrings_perm l).nodup_iff.2 hn
  exact (h1.and h2).imp fun h => h.1.resolve_right h.2

theorem sortStrings_congr {l₁ l₂ : List Str} (hn : l₁.Nodup) (hp : l₁.Perm l₂) : sortStrings l₁ = sortStrings l₂ :=
  pairwise_unique StrLt.irrefl (fun _ _ _ => StrLt.trans) (sortStrings_strict hn) (sortStrings_strict (hp.nodup_iff.1 hn))
    fun _ => ((sortStrings_perm l₁).mem_iff.trans hp.mem_iff).trans (sortStrings_perm l₂).mem_iff.symm

/-! ### Paths -/

theorem PathLt.irrefl (a : List Str) : ¬ PathLt a a := by
  induction a with
  | nil => intro h; cases h
  | cons a as ih =>
    intro h
    cases h with
    | cons h => exact ih h
    | rel h => exact StrLt.irrefl a h

theorem PathLt.trans : ∀ {a b c : List Str}, PathLt a b → PathLt b c → PathLt a c := by
  intro a
  induction a with
  | nil =>
    intro b c h1 h2
    cases c with
    | nil => cases h2
    | cons c cs => exact List.Lex.nil
  | cons a as ih =>
    intro b c h1 h2
    cases h1 with
    | cons h1 =>
      cases h2 with
      | cons h2 => exact List.Lex.cons (ih h1 h2)
      | rel h2 => exact List.Lex.rel h2
    | rel h1 =>
      cases h2 with
      | cons h2 => exact List.Lex.rel h1
      | rel h2 => exact List.Lex.rel (h1.trans h2)

theorem PathLt.prepend (cs : List Str) {a b : List Str} (h : PathLt a b) : PathLt (cs ++ a) (cs ++ b) := by
  induction cs with
  | nil => exact h
  | cons c cs ih => exact List.Lex.cons ih

theorem PathLt.extend (cs : List Str) {a : List Str} (h : a ≠ []) : PathLt cs (cs ++ a) := by
  have := PathLt.prepend cs (a := []) (b := a) (by cases a with | nil => exact absurd rfl h | cons _ _ => exact List.Lex.nil)
  simpa using this

/-- There is one listing only. -/
theorem Heap.Listing.unique {h : Heap} {P : List Str → Ref → Prop} {l₁ l₂ : List (List Str × Ref)} (a : h.Listing P l₁) (b : h.Listing P l₂) :
    l₁ = l₂ :=
  pairwise_unique (r := fun a b : List Str × Ref => PathLt a.1 b.1) (fun a => PathLt.irrefl a.1) (fun _ _ _ => PathLt.trans) a.sorted b.sorted fun x => (a.mem x.1 x.2).trans (b.mem x.1 x.2).symm

end Gledger
