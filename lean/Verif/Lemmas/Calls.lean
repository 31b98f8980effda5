import Verif.Lemmas.Close

namespace Gledger

variable {σ : Type}

/-- A handler call only changes the handlers' state, by one call of the handler or not at all. -/
theorem callHandler_cases {α : Type} (h : Option (σ → α → Str → Step σ)) (a : α) (st : PState σ) :
    (∃ f, callHandler h a st = (st, f)) ∨
      ∃ hd file, h = some hd ∧ callHandler h a st = ({ st with user := (hd st.user a file).1 }, (hd st.user a file).2) := by
  unfold callHandler
  cases h with
  | none => exact Or.inl ⟨_, rfl⟩
  | some hd =>
    cases st.files.getLast? with
    | none => exact Or.inl ⟨_, rfl⟩
    | some f => exact Or.inr ⟨hd, f, rfl, rfl⟩

/-- If every transaction that closes satisfies `P`, all delivered transactions do. -/
theorem logged_inv {P : Transaction → Prop}
    (hP : ∀ (t : Transaction) (cur : Option Posting) (budget : Bool), t.ElidedOK →
      (endNormalTransaction cur budget t).2 = none → P (endNormalTransaction cur budget t).1)
    (H : Handlers σ) :
    ParserInv (logged H) (fun st => st.builder.OK ∧ ∀ c ∈ st.user.2, P c.transaction)
      (fun st => st.builder.OK ∧ ∀ c ∈ st.user.2, P c.transaction)
      (fun st => ∀ c ∈ st.user.2, P c.transaction) where
  weak := fun _ h => h.2
  idle := fun _ h => h
  files := fun _ _ h => h
  begun := fun _ t h => ⟨h.1.begin t, h.2⟩
  built := fun st item content h => ⟨h.2, fun _ => ⟨h.1.build item content, h.2⟩⟩
  ended := by
    rintro st ⟨hb, hc⟩
    unfold endTransaction
    cases htt : st.builder.ttype with
    | normal =>
      simp only
      cases ht : st.builder.transaction with
      | none => exact ⟨hc, fun _ => ⟨hb, hc⟩⟩
      | some t =>
        simp only
        have hok := hP t st.builder.current false (hb.1 t ht)
        generalize hr : endNormalTransaction st.builder.current false t = r at hok
        obtain ⟨t', _ | e⟩ := r
        · simp only
          specialize hok rfl
          rcases callHandler_cases (logged H).th t' { st with builder := { st.builder with transaction := some t' } }
            with ⟨f, h⟩ | ⟨hd, file, h1, h⟩
          · rw [h]
            cases f with
            | none => exact ⟨hc, fun _ => ⟨⟨by simp, hb.2⟩, hc⟩⟩
            | some e => exact ⟨hc, by simp⟩
          · simp only [logged, Option.map_eq_some_iff] at h1
            obtain ⟨h0, _, rfl⟩ := h1
            rw [h]
            have hnew : ∀ c ∈ st.user.2 ++ [Call.normal t' file], P c.transaction := by
              intro c hmem
              rcases List.mem_append.1 hmem with h' | h'
              · exact hc c h'
              · rw [List.mem_singleton] at h'; subst h'; exact hok
            simp only
            cases (h0 st.user.1 t' file).2 with
            | none => exact ⟨hnew, fun _ => ⟨⟨by simp, hb.2⟩, hnew⟩⟩
            | some e => exact ⟨hnew, by simp⟩
        · exact ⟨hc, by simp⟩
    | periodic =>
      simp only
      cases ht : st.builder.periodic with
      | none => exact ⟨hc, fun _ => ⟨hb, hc⟩⟩
      | some pt =>
        simp only
        have hok := hP pt.transaction st.builder.current (decide (pt.period.interval = PeriodType.none)) (hb.2 pt ht)
        generalize hr : endNormalTransaction st.builder.current (decide (pt.period.interval = PeriodType.none))
          pt.transaction = r at hok
        obtain ⟨t', _ | e⟩ := r
        · simp only
          specialize hok rfl
          rcases callHandler_cases (logged H).ph { pt with transaction := t' }
            { st with builder := { st.builder with periodic := some { pt with transaction := t' } } }
            with ⟨f, h⟩ | ⟨hd, file, h1, h⟩
          · rw [h]
            cases f with
            | none => exact ⟨hc, fun _ => ⟨⟨hb.1, by simp⟩, hc⟩⟩
            | some e => exact ⟨hc, by simp⟩
          · simp only [logged, Option.map_eq_some_iff] at h1
            obtain ⟨h0, _, rfl⟩ := h1
            rw [h]
            have hnew : ∀ c ∈ st.user.2 ++ [Call.periodic { pt with transaction := t' } file], P c.transaction := by
              intro c hmem
              rcases List.mem_append.1 hmem with h' | h'
              · exact hc c h'
              · rw [List.mem_singleton] at h'; subst h'; exact hok
            simp only
            cases (h0 st.user.1 { pt with transaction := t' } file).2 with
            | none => exact ⟨hnew, fun _ => ⟨⟨hb.1, by simp⟩, hnew⟩⟩
            | some e => exact ⟨hnew, by simp⟩
        · exact ⟨hc, by simp⟩

theorem calls_all [Unicode] {P : Transaction → Prop}
    (hP : ∀ (t : Transaction) (cur : Option Posting) (budget : Bool), t.ElidedOK →
      (endNormalTransaction cur budget t).2 = none → P (endNormalTransaction cur budget t).1)
    (fs : FileSystem) (H : Handlers σ) (maxOpen : Nat) (bytes : List UInt8) (path : Str) (u : σ) :
    ∀ c ∈ callsOf fs H maxOpen bytes path u, P c.transaction :=
  (parse_keeps (logged_inv hP H) fs maxOpen bytes path (newParser (u, []))
    ⟨⟨by simp [newParser], by simp [newParser]⟩, by simp [newParser]⟩).1

end Gledger
