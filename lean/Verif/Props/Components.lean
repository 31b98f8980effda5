/-
C32 An account's PathComponents: exactly which names they hold.
-/
import Verif.Spec.Components
import Verif.Props.Accounts

namespace Gledger

/-! ### Sizes -/

theorem arrayRoom_power (d : Nat) : ∃ k, arrayRoom d = 2 ^ k := by
  induction d with
  | zero => exact ⟨0, rfl⟩
  | succ d ih =>
    obtain ⟨k, hk⟩ := ih
    rw [arrayRoom]
    split
    · exact ⟨k, hk⟩
    · exact ⟨k + 1, by rw [hk, Nat.pow_succ, Nat.mul_comm]⟩

/-- It is not below the depth, and half of it is. -/
theorem arrayRoom_bounds (d : Nat) (hd : 0 < d) : d ≤ arrayRoom d ∧ arrayRoom d < 2 * d := by
  induction d with
  | zero => omega
  | succ d ih =>
    rw [arrayRoom]
    by_cases h0 : d = 0
    · subst h0; decide
    · have := ih (by omega)
      split <;> omega

theorem arrayRoom_full {d : Nat} (hd : 0 < d) (h : ¬ d + 1 ≤ arrayRoom d) : arrayRoom d = d := by
  have := arrayRoom_bounds d hd
  omega

theorem arrayStart_le {d : Nat} (hd : 0 < d) : arrayStart d ≤ d := by
  have := arrayRoom_bounds d hd
  unfold arrayStart
  omega

theorem arrayStart_pos (d : Nat) : 0 < arrayStart d := by unfold arrayStart; omega

theorem arrayRoom_between {d e : Nat} (h1 : arrayStart d ≤ e) (h2 : e ≤ d) : arrayRoom e = arrayRoom d := by
  have he : 0 < e := Nat.lt_of_lt_of_le (arrayStart_pos d) h1
  obtain ⟨j, hj⟩ := arrayRoom_power e
  obtain ⟨k, hk⟩ := arrayRoom_power d
  have b1 := arrayRoom_bounds e he
  have b2 := arrayRoom_bounds d (by omega)
  unfold arrayStart at h1
  rw [hj] at b1 ⊢
  rw [hk] at b2 h1 ⊢
  have hjk : j ≤ k := by
    by_contra hc
    have : 2 ^ (k + 1) ≤ 2 ^ j := Nat.pow_le_pow_right (by omega) (by omega)
    rw [Nat.pow_succ] at this
    omega
  have hkj : k ≤ j := by
    by_contra hc
    have : 2 ^ (j + 1) ≤ 2 ^ k := Nat.pow_le_pow_right (by omega) (by omega)
    rw [Nat.pow_succ] at this
    omega
  rw [Nat.le_antisymm hjk hkj]

theorem arrayStart_between {d e : Nat} (h1 : arrayStart d ≤ e) (h2 : e ≤ d) : arrayStart e = arrayStart d := by
  unfold arrayStart
  rw [arrayRoom_between h1 h2]

theorem arrayStart_inPlace {d : Nat} (h : d + 1 ≤ arrayRoom d) : arrayRoom (d + 1) = arrayRoom d ∧ arrayStart (d + 1) = arrayStart d := by
  have : arrayRoom (d + 1) = arrayRoom d := by rw [arrayRoom, if_pos h]
  exact ⟨this, by unfold arrayStart; rw [this]⟩

theorem arrayStart_fresh {d : Nat} (hd : 0 < d) (h : ¬ d + 1 ≤ arrayRoom d) : arrayRoom (d + 1) = 2 * arrayRoom d ∧ arrayStart (d + 1) = d + 1 := by
  have : arrayRoom (d + 1) = 2 * arrayRoom d := by rw [arrayRoom, if_neg h]
  refine ⟨this, ?_⟩
  unfold arrayStart
  rw [this, arrayRoom_full hd h]
  omega

example : (List.range 10).map (fun d => arrayStart (d + 1)) = [1, 2, 3, 3, 5, 5, 5, 5, 9, 9] := by decide

/-! ### Shown components -/

theorem ShownComponent.unique {h : Heap} (hf : h.Tree) {t : Ref} {cs : List Str} {i : Nat} {c c' : Str} (a : ShownComponent h t cs i c)
    (b : ShownComponent h t cs i c') : c = c' := by
  induction a with
  | own hi hc =>
    cases b with
    | own hi' hc' => rw [hc] at hc'; exact Option.some.inj hc'
    | copied hi' _ _ => omega
    | shared hi' => omega
  | copied hi hx hc ih =>
    cases b with
    | own hi' hc' => omega
    | copied hi' hx' hc' =>
      rw [hx] at hx'
      cases hx'
      exact ih hc'
    | shared hi' => omega
  | @shared t y cs ds i c hi hl hy hp hd ht hmax hc =>
    cases b with
    | own hi' hc' => omega
    | copied hi' hx' hc' => omega
    | @shared _ y' _ ds' _ _ hi' hl' hy' hp' hd' ht' hmax' hc' =>
      have e : y = y' := Nat.le_antisymm (hmax' ds y hy hp hd ht) (hmax ds' y' hy' hp' hd' ht')
      subst e
      have e := hf.walk_inj hy hy'
      subst e
      rw [hc] at hc'
      exact Option.some.inj hc'

theorem ShownComponent.congr {h h' : Heap} (hat : ∀ cs, h'.at cs = h.at cs) {t : Ref} {cs : List Str} {i : Nat} {c : Str} (a : ShownComponent h t cs i c) :
    ShownComponent h' t cs i c := by
  induction a with
  | own hi hc => exact .own hi hc
  | copied hi hx hc ih => exact .copied hi (by rw [hat]; exact hx) ih
  | shared hi hl hy hp hd ht hmax hc =>
    refine .shared hi hl (by rw [hat]; exact hy) hp hd ht ?_ hc
    intro es z hz
    rw [hat] at hz
    exact hmax es z hz

/-- Later accounts do not matter for what was shown before. -/
theorem ShownComponent.mono {h h1 : Heap} (hup : ∀ cs x, h.at cs = some x → h1.at cs = some x)
    (hdown : ∀ cs x, h1.at cs = some x → x < h.next → h.at cs = some x) (hlt : ∀ cs x, h.at cs = some x → x < h.next)
    {t : Ref} {cs : List Str} {i : Nat} {c : Str} (a : ShownComponent h t cs i c) (ht : t ≤ h.next) : ShownComponent h1 t cs i c := by
  induction a with
  | own hi hc => exact .own hi hc
  | copied hi hx hc ih => exact .copied hi (hup _ _ hx) (ih (Nat.le_of_lt (hlt _ _ hx)))
  | shared hi hl hy hp hd hyt hmax hc =>
    refine .shared hi hl (hup _ _ hy) hp hd hyt ?_ hc
    intro es z hz h1 h2 h3
    exact hmax es z (hdown es z hz (by omega)) h1 h2 h3

/-- A new account only matters for those that share its array. -/
theorem ShownComponent.later {h : Heap} {t : Ref} {ns : List Str} (hn : ∀ es, h.at es = some t → es = ns) {cs : List Str} {i : Nat} {c : Str}
    (a : ShownComponent h t cs i c) (hc : ¬ (arrayStart cs.length ≤ i ∧ ns.length = i + 1 ∧ cs.take (arrayStart cs.length) <+: ns)) :
    ShownComponent h (t + 1) cs i c := by
  cases a with
  | own hi hc => exact .own hi hc
  | copied hi hx hc => exact .copied hi hx hc
  | shared hi hl hy hp hd hyt hmax hcd =>
    refine .shared hi hl hy hp hd (by omega) ?_ hcd
    intro es z hz h1 h2 h3
    by_cases h4 : z = t
    · subst h4
      have := hn es hz
      subst this
      exact absurd ⟨hi, h2, h1⟩ hc
    · exact hmax es z hz h1 h2 (by omega)

theorem ShownComponent.extend {h : Heap} {t : Ref} {bs : List Str} {i : Nat} {v c : Str} (hb : bs ≠ []) (hs : arrayStart (bs.length + 1) = arrayStart bs.length)
    (a : ShownComponent h t bs i v) : ShownComponent h t (bs ++ [c]) i v := by
  have h0 : 0 < bs.length := List.length_pos_iff.2 hb
  have hle := arrayStart_le h0
  have htake : (bs ++ [c]).take (arrayStart bs.length) = bs.take (arrayStart bs.length) := List.take_append_of_le_length hle
  have htake' : (bs ++ [c]).take (arrayStart bs.length - 1) = bs.take (arrayStart bs.length - 1) := List.take_append_of_le_length (by omega)
  have hlen : arrayStart (bs ++ [c]).length = arrayStart bs.length := by rw [List.length_append, List.length_singleton, hs]
  cases a with
  | own hi hc => exact .own (by rw [hlen]; exact hi) (by rw [List.getElem?_append_left (by omega)]; exact hc)
  | copied hi hx hc => exact .copied (by rw [hlen]; exact hi) (by rw [hlen, htake]; exact hx) (by rw [hlen, htake']; exact hc)
  | shared hi hl hy hp hd hyt hmax hcd =>
    exact .shared (by rw [hlen]; exact hi) (by rw [List.length_append]; omega) hy (by rw [hlen, htake]; exact hp) hd hyt (by rw [hlen, htake]; exact hmax) hcd

/-! ### The invariant -/

structure Heap.Arrays (h : Heap) : Prop where
  base : ∀ cs x, h.at cs = some x → cs ≠ [] → (h.node x).comps.arr < h.nextArr ∧ (h.node x).comps.len = cs.length ∧
    (h.node x).comps.cap = arrayRoom cs.length
  share : ∀ cs x ds y, h.at cs = some x → cs ≠ [] → h.at ds = some y → ds ≠ [] →
    ((h.node x).comps.arr = (h.node y).comps.arr ↔ cs.take (arrayStart cs.length) = ds.take (arrayStart ds.length))
  shown : ∀ cs x, h.at cs = some x → cs ≠ [] → ∀ i < cs.length, ShownComponent h h.next cs i (h.arr (h.node x).comps.arr i)

theorem at_prefix {h : Heap} {as bs : List Str} {x : Ref} (hx : h.at (as ++ bs) = some x) : ∃ y, h.at as = some y := by
  simp only [Heap.at] at hx ⊢
  rw [Heap.walk_append, Option.bind_eq_some_iff] at hx
  obtain ⟨y, hy, _⟩ := hx
  exact ⟨y, hy⟩

theorem arrays_step (h : Heap) (p : Ref) (bs : List Str) (c : Str) (hf : h.Full) (hb : h.at bs = some p) (hc : h.child p c = none)
    (ih : h.Clean → h.Arrays) (hcl : (h.newChild p c).2.Clean) : (h.newChild p c).2.Arrays := by
  have hp : p < h.next := hf.toTree.at_next hb
  obtain ⟨_, n, _⟩ := newChild_spec h p c hp
  obtain ⟨k1, k2, k3, k4⟩ := newChild_comps h p c hp
  generalize (h.newChild p c).2 = h1 at n k1 k2 k3 k4 hcl
  have hf1 := n.full hf hp hc
  have g := n.grows hf hp hc
  have hcl0 : h.Clean := ⟨by rw [← (g.old 0 hf.root.1).1]; exact hcl.1, fun cs hcs => hcl.2 cs (g.has hcs)⟩
  have ar := ih hcl0
  have hwalk : ∀ cs x, h1.at cs = some x → (x < h.next ∧ h.at cs = some x) ∨ (x = h.next ∧ cs = bs ++ [c]) := by
    intro cs x hx
    rcases n.walk hf hp hc cs 0 x hf.root.1 hx with h2 | ⟨rfl, es, rfl, h4⟩
    · exact Or.inl h2
    · exact Or.inr ⟨rfl, by rw [hf.toTree.walk_inj h4 hb]⟩
  have hold : ∀ x, x < h.next → (h1.node x).comps = (h.node x).comps := fun x hx => k1 x (by omega)
  have hnew : ∀ ds y, h.at ds = some y → ¬ bs ++ [c] <+: ds := by
    rintro ds y hy ⟨es, rfl⟩
    obtain ⟨z, hz⟩ := at_prefix hy
    simp only [Heap.at] at hz hb
    rw [Heap.walk_snoc, hb] at hz
    simp only [Option.bind_some] at hz
    rw [hc] at hz
    cases hz
  have hup : ∀ cs x, h.at cs = some x → h1.at cs = some x := fun cs x hx => g.walk hx
  have hdown : ∀ cs x, h1.at cs = some x → x < h.next → h.at cs = some x := by
    intro cs x hx hlt
    rcases hwalk cs x hx with h2 | ⟨h2, _⟩
    · exact h2.2
    · omega
  have hlt : ∀ cs x, h.at cs = some x → x < h.next := fun cs x hx => hf.toTree.at_next hx
  have hns : ∀ es, h1.at es = some h.next → es = bs ++ [c] := by
    intro es he
    rcases hwalk es _ he with h2 | ⟨_, h2⟩
    · omega
    · exact h2
  have hself : h1.at (bs ++ [c]) = some h.next := by
    have hb1 := hup _ _ hb
    simp only [Heap.at] at hb1 ⊢
    rw [Heap.walk_snoc, hb1]
    simp only [Option.bind_some]
    refine hf1.toTree.child_iff.2 ?_
    rw [n.parent]
    simp only
    rw [assignKey_new hc]
    simp
  have keep : ∀ cs x, h.at cs = some x → cs ≠ [] → ∀ i < cs.length,
      ¬ (arrayStart cs.length ≤ i ∧ (bs ++ [c]).length = i + 1 ∧ cs.take (arrayStart cs.length) <+: bs ++ [c]) →
      ShownComponent h1 h1.next cs i (h.arr (h.node x).comps.arr i) := by
    intro cs x hx hne i hi hcond
    rw [n.next]
    exact ((ar.shown cs x hx hne i hi).mono hup hdown hlt (Nat.le_refl _)).later hns hcond
  by_cases hr : isRootName (h.node p).name = true
  · have hb0 : bs = [] := (hcl0.name hf.toTree hb).1 hr
    subst hb0
    obtain ⟨c1, c2, c3⟩ := k2 hr
    have one : arrayStart 1 = 1 := by decide
    have fresh : ∀ ds y, h.at ds = some y → ds ≠ [] → ((h1.node y).comps.arr ≠ h.nextArr) ∧ ds.take (arrayStart ds.length) ≠ [c] := by
      intro ds y hy hne
      rw [hold y (hlt _ _ hy)]
      refine ⟨by have := (ar.base ds y hy hne).1; omega, fun he => ?_⟩
      exact hnew ds y hy (by rw [List.nil_append, ← he]; exact List.take_prefix _ _)
    refine ⟨fun cs x hx hne => ?_, fun cs x ds y hx hn1 hy hn2 => ?_, fun cs x hx hne i hi => ?_⟩
    · rcases hwalk cs x hx with ⟨h2, h3⟩ | ⟨rfl, rfl⟩
      · obtain ⟨b1, b2, b3⟩ := ar.base cs x h3 hne
        rw [hold x h2, c2]
        exact ⟨by omega, b2, b3⟩
      · rw [c1, c2]
        exact ⟨by simp, by simp, by rfl⟩
    · rcases hwalk cs x hx with ⟨h2, h3⟩ | ⟨rfl, rfl⟩ <;> rcases hwalk ds y hy with ⟨h4, h5⟩ | ⟨rfl, rfl⟩
      · rw [hold x h2, hold y h4]
        exact ar.share cs x ds y h3 hn1 h5 hn2
      · have := fresh cs x h3 hn1
        rw [c1]
        exact iff_of_false this.1 (by simpa [one] using this.2)
      · have := fresh ds y h5 hn2
        rw [c1]
        exact iff_of_false this.1.symm (by simpa [one] using fun e => this.2 (by simpa using e.symm))
      · simp
    · rcases hwalk cs x hx with ⟨h2, h3⟩ | ⟨rfl, rfl⟩
      · have := (ar.base cs x h3 hne).1
        rw [hold x h2, c3, if_neg (by omega)]
        refine keep cs x h3 hne i hi ?_
        rintro ⟨q1, q2, _⟩
        have := arrayStart_pos cs.length
        simp at q2
        omega
      · have hi0 : i = 0 := by simpa using hi
        subst hi0
        rw [c1, c3]
        simp only [and_self, if_true]
        exact .own (by simp [one]) (by simp)
  · have hb0 : bs ≠ [] := fun he => hr ((hcl0.name hf.toTree hb).2 he)
    have hd0 : 0 < bs.length := List.length_pos_iff.2 hb0
    obtain ⟨p1, p2, p3⟩ := ar.base bs p hb hb0
    rw [Bool.not_eq_true] at hr
    have hl : (bs ++ [c]).length = bs.length + 1 := by simp
    by_cases hcap : (h.node p).comps.len < (h.node p).comps.cap
    · obtain ⟨c1, c2, c3⟩ := k3 hr hcap
      rw [p2, p3] at hcap
      obtain ⟨r1, r2⟩ := arrayStart_inPlace hcap
      have hle := arrayStart_le hd0
      have htake : (bs ++ [c]).take (arrayStart (bs ++ [c]).length) = bs.take (arrayStart bs.length) := by
        rw [hl, r2]; exact List.take_append_of_le_length hle
      refine ⟨fun cs x hx hne => ?_, fun cs x ds y hx hn1 hy hn2 => ?_, fun cs x hx hne i hi => ?_⟩
      · rcases hwalk cs x hx with ⟨h2, h3⟩ | ⟨rfl, rfl⟩
        · rw [hold x h2, c2]
          exact ar.base cs x h3 hne
        · rw [c1, c2, hl, r1]
          exact ⟨p1, by simp [p2], p3⟩
      · rcases hwalk cs x hx with ⟨h2, h3⟩ | ⟨rfl, rfl⟩ <;> rcases hwalk ds y hy with ⟨h4, h5⟩ | ⟨rfl, rfl⟩
        · rw [hold x h2, hold y h4]
          exact ar.share cs x ds y h3 hn1 h5 hn2
        · rw [hold x h2, c1, htake]
          exact ar.share cs x bs p h3 hn1 hb hb0
        · rw [hold y h4, c1, htake]
          exact ar.share bs p ds y hb hb0 h5 hn2
        · simp
      · have shownNew : ∀ es : List Str, arrayStart es.length ≤ bs.length → bs.length < es.length → es.take (arrayStart es.length) <+: bs ++ [c] →
            ShownComponent h1 h1.next es bs.length c := by
          intro es q1 q2 q3
          refine .shared (y := h.next) (ds := bs ++ [c]) q1 q2 hself q3 hl (by rw [n.next]; omega) ?_ (by simp)
          intro fs z hz _ _ h5
          rw [n.next] at h5
          omega
        rcases hwalk cs x hx with ⟨h2, h3⟩ | ⟨rfl, rfl⟩
        · rw [hold x h2, c3, p2]
          by_cases hsame : (h.node x).comps.arr = (h.node p).comps.arr ∧ i = bs.length
          · rw [if_pos hsame]
            obtain ⟨q1, rfl⟩ := hsame
            have q2 := (ar.share cs x bs p h3 hne hb hb0).1 q1
            have q3 := congrArg List.length q2
            rw [List.length_take, List.length_take, Nat.min_eq_left (arrayStart_le (List.length_pos_iff.2 hne)), Nat.min_eq_left hle] at q3
            refine shownNew cs (by omega) hi ?_
            rw [q2]
            exact (List.take_prefix _ _).trans (List.prefix_append _ _)
          · rw [if_neg hsame]
            refine keep cs x h3 hne i hi ?_
            rintro ⟨q1, q2, q3⟩
            rw [hl] at q2
            have q4 : i = bs.length := by omega
            subst q4
            refine hsame ⟨(ar.share cs x bs p h3 hne hb hb0).2 ?_, rfl⟩
            have q5 := arrayStart_between q1 (Nat.le_of_lt hi)
            rw [q5]
            have q6 := List.prefix_iff_eq_take.1 q3
            rw [List.length_take, Nat.min_eq_left (by omega), List.take_append_of_le_length (by omega)] at q6
            exact q6
        · rw [c1, c3]
          simp only [p2, true_and]
          by_cases hid : i = bs.length
          · rw [if_pos hid]
            subst hid
            exact shownNew _ (by rw [hl, r2]; exact hle) (by rw [hl]; omega) (List.take_prefix _ _)
          · rw [if_neg hid]
            rw [hl] at hi
            refine (keep bs p hb hb0 i (by omega) ?_).extend hb0 r2
            rintro ⟨_, q2, _⟩
            rw [hl] at q2
            omega
    · obtain ⟨c1, c2, c3⟩ := k4 hr hcap
      rw [p2, p3] at hcap
      have hcap' : ¬ bs.length + 1 ≤ arrayRoom bs.length := by omega
      obtain ⟨r1, r2⟩ := arrayStart_fresh hd0 hcap'
      have htake : (bs ++ [c]).take (arrayStart (bs ++ [c]).length) = bs ++ [c] := by
        rw [hl, r2]; exact List.take_of_length_le (by rw [hl])
      have fresh : ∀ ds y, h.at ds = some y → ds ≠ [] → ((h.node y).comps.arr ≠ h.nextArr) ∧ ds.take (arrayStart ds.length) ≠ bs ++ [c] := by
        intro ds y hy hne
        refine ⟨by have := (ar.base ds y hy hne).1; omega, fun he => ?_⟩
        exact hnew ds y hy (by rw [← he]; exact List.take_prefix _ _)
      refine ⟨fun cs x hx hne => ?_, fun cs x ds y hx hn1 hy hn2 => ?_, fun cs x hx hne i hi => ?_⟩
      · rcases hwalk cs x hx with ⟨h2, h3⟩ | ⟨rfl, rfl⟩
        · obtain ⟨b1, b2, b3⟩ := ar.base cs x h3 hne
          rw [hold x h2, c2]
          exact ⟨by omega, b2, b3⟩
        · rw [c1, c2, hl, r1, ← p3]
          refine ⟨by simp, by simp [p2], ?_⟩
          simp only [growCap]
          rw [p3, if_neg (by have := arrayRoom_bounds _ hd0; omega)]
      · rcases hwalk cs x hx with ⟨h2, h3⟩ | ⟨rfl, rfl⟩ <;> rcases hwalk ds y hy with ⟨h4, h5⟩ | ⟨rfl, rfl⟩
        · rw [hold x h2, hold y h4]
          exact ar.share cs x ds y h3 hn1 h5 hn2
        · rw [hold x h2, c1, htake]
          exact iff_of_false (fresh cs x h3 hn1).1 (fresh cs x h3 hn1).2
        · rw [hold y h4, c1, htake]
          exact iff_of_false (fresh ds y h5 hn2).1.symm (fresh ds y h5 hn2).2.symm
        · simp
      · rcases hwalk cs x hx with ⟨h2, h3⟩ | ⟨rfl, rfl⟩
        · rw [hold x h2, c3, if_neg (fresh cs x h3 hne).1]
          refine keep cs x h3 hne i hi ?_
          rintro ⟨q1, q2, q3⟩
          rw [hl] at q2
          have := arrayStart_between (d := cs.length) (e := bs.length + 1) (by omega) (by omega)
          omega
        · rw [c1, c3]
          simp only [if_true, p2]
          by_cases hid : i = bs.length
          · rw [if_pos hid]
            subst hid
            exact .own (by rw [hl, r2]) (by simp)
          · rw [if_neg hid]
            rw [hl] at hi
            refine .copied (x := h.next) (by rw [hl, r2]; omega) (by rw [htake]; exact hself) ?_
            have : (bs ++ [c]).take (arrayStart (bs ++ [c]).length - 1) = bs := by rw [hl, r2]; simp
            rw [this]
            exact (ar.shown bs p hb hb0 i (by omega)).mono hup hdown hlt (Nat.le_refl _)

theorem Heap.Made.arrays {name : Str} {h : Heap} (m : h.Made name) : h.Clean → h.Arrays := by
  refine m.induct (P := fun h => h.Clean → h.Arrays) ?_ arrays_step ?_
  · intro _
    have : ∀ cs x, (newAccount name).at cs = some x → cs ≠ [] → False := by
      intro cs x hx hn
      cases cs with
      | nil => exact absurd rfl hn
      | cons c cs => simp [Heap.at, Heap.walk, Heap.child, newAccount, lookupKey] at hx
    exact ⟨fun cs x hx hn => (this cs x hx hn).elim, fun cs x _ _ hx hn => (this cs x hx hn).elim, fun cs x hx hn => (this cs x hx hn).elim⟩
  · intro h h' _ s ih hcl
    have hcl0 : h.Clean := ⟨by rw [← (s.node 0).1]; exact hcl.1, fun cs hcs => hcl.2 cs ((s.has cs).2 hcs)⟩
    have ar := ih hcl0
    refine ⟨fun cs x hx hne => ?_, fun cs x ds y hx hn1 hy hn2 => ?_, fun cs x hx hne i hi => ?_⟩
    · rw [s.at] at hx
      rw [(s.node x).2.2.1, s.arrs.1]
      exact ar.base cs x hx hne
    · rw [s.at] at hx hy
      rw [(s.node x).2.2.1, (s.node y).2.2.1]
      exact ar.share cs x ds y hx hn1 hy hn2
    · rw [s.at] at hx
      rw [(s.node x).2.2.1, s.arrs.2, s.next]
      exact (ar.shown cs x hx hne i hi).congr s.at

/-- Which names the components of an account hold, in every tree without reserved names: as many as the account is deep, each as `ShownComponent` says. -/
theorem C32_components_exact_partial {name : Str} {h : Heap} (m : h.Made name) (hc : h.Clean) {cs : List Str} {x : Ref} (hx : h.at cs = some x) (hcs : cs ≠ []) :
    (h.slice (h.node x).comps).length = cs.length ∧
    ∀ i < cs.length, ∀ c, (h.slice (h.node x).comps)[i]? = some c ↔ ShownComponent h h.next cs i c := by
  have ar := m.arrays hc
  have hlen := (ar.base cs x hx hcs).2.1
  refine ⟨by simp [Heap.slice, hlen], fun i hi c => ?_⟩
  have : (h.slice (h.node x).comps)[i]? = some (h.arr (h.node x).comps.arr i) := by
    unfold Heap.slice
    rw [List.getElem?_map, List.getElem?_range (by omega)]
    rfl
  rw [this]
  have sh := ar.shown cs x hx hcs i hi
  constructor
  · intro e
    cases e
    exact sh
  · intro e
    rw [sh.unique m.full.toTree e]

/-- Two accounts have the same array behind their components exactly if they are below, or are, the same account for which it was made. -/
theorem C32_shared_exactly_partial {name : Str} {h : Heap} (m : h.Made name) (hc : h.Clean) {cs ds : List Str} {x y : Ref} (hx : h.at cs = some x) (hcs : cs ≠ [])
    (hy : h.at ds = some y) (hds : ds ≠ []) :
    (h.node x).comps.arr = (h.node y).comps.arr ↔ cs.take (arrayStart cs.length) = ds.take (arrayStart ds.length) :=
  (m.arrays hc).share cs x ds y hx hcs hy hds

/-- In `twins` the fourth component of `A:B:C:D` is the name of its younger sister. -/
example : ShownComponent twins twins.next [str "A", str "B", str "C", str "D"] 3 (str "E") := by
  obtain ⟨hm, hc⟩ := twins_made
  refine ((C32_components_exact_partial hm hc (cs := [str "A", str "B", str "C", str "D"]) (x := 4) (by decide) (by simp)).2 3 (by decide) _).1 ?_
  decide

end Gledger
