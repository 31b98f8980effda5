/-
For C101: a handler that fails at a paragraph makes the parser fail at the place where the paragraph is complete.
-/
import Verif.Spec.Spots
import Verif.Lemmas.Journals

namespace Gledger

theorem forall₂_at {α β : Type} {R : α → β → Prop} {l : List α} {l' : List β} (h : List.Forall₂ R l l') :
    ∀ {i : Nat} {x : α}, l[i]? = some x → ∃ c, l' = l'.take i ++ c :: l'.drop (i + 1) ∧ R x c ∧ List.Forall₂ R (l.take i) (l'.take i) := by
  induction h with
  | nil => intro i x hx; cases hx
  | @cons a b l l' hab _ ih =>
    intro i x hx
    cases i with
    | zero =>
      obtain rfl : a = x := Option.some.inj hx
      exact ⟨b, rfl, hab, .nil⟩
    | succ i =>
      obtain ⟨c, h1, h2, h3⟩ := ih (i := i) (x := x) hx
      refine ⟨c, ?_, h2, .cons hab h3⟩
      conv_lhs => rw [h1]
      rfl

section
variable {σ : Type} {H : Handlers σ}

theorem replay_fails {before rest : List Call} {c : Call} {u u' u'' : σ} {f : Failure} (h1 : H.replay before u = (u', none))
    (h2 : H.call u' c = (u'', some f)) : H.replay (before ++ c :: rest) u = (u'', some f) := by
  rw [replay_append, h1]
  show (H.call u' c).andThen _ = _
  rw [h2]
  rfl

/-- A handler failing at the paragraph number `i` makes the run fail there. -/
def Breaks (H : Handlers σ) (u : σ) (run : PState σ × Option Failure) (js : List (Meant × Str)) (i : Nat) (x : Meant × Str) (via : List (Str × Nat))
    (place : Option (Str × Nat)) : Prop :=
  ∃ before c, List.Forall₂ (fun (x : Meant × Str) c => x.1.Call x.2 c) (js.take i) before ∧ x.1.Call x.2 c ∧
    ∀ u' u'' f, H.replay before u = (u', none) → H.call u' c = (u'', some f) →
      run.1.user = u'' ∧ run.2 = some (f.wrap fun e => nested (placed e place) via)

/-- If the first part already fails, there is nothing to show. -/
theorem Breaks.never {u : σ} {run : PState σ × Option Failure} {js js' : List (Meant × Str)} {calls calls' : List Call} {i : Nat} {x : Meant × Str}
    {via : List (Str × Nat)} {place : Option (Str × Nat)} {v : σ} {g : Failure}
    (h1 : List.Forall₂ (fun (x : Meant × Str) c => x.1.Call x.2 c) js calls) (h2 : List.Forall₂ (fun (x : Meant × Str) c => x.1.Call x.2 c) js' calls')
    (hx : js'[i]? = some x) (hg : H.replay calls u = (v, some g)) : Breaks H u run (js ++ js') (js.length + i) x via place := by
  obtain ⟨c, e1, e2, e3⟩ := forall₂_at h2 hx
  refine ⟨calls ++ calls'.take i, c, ?_, e2, ?_⟩
  · rw [List.take_length_add_append]
    exact List.rel_append h1 e3
  · intro u' u'' f hr
    obtain ⟨w', hw, _⟩ := replay_append_ok hr
    rw [hg] at hw
    cases hw

theorem Breaks.later {u v : σ} {run run' : PState σ × Option Failure} {js js' : List (Meant × Str)} {calls : List Call} {i : Nat} {x : Meant × Str}
    {via : List (Str × Nat)} {place : Option (Str × Nat)} (h1 : List.Forall₂ (fun (x : Meant × Str) c => x.1.Call x.2 c) js calls)
    (hg : H.replay calls u = (v, none)) (hr : run = run') (h : Breaks H v run' js' i x via place) : Breaks H u run (js ++ js') (js.length + i) x via place := by
  subst hr
  obtain ⟨before, c, e1, e2, e3⟩ := h
  refine ⟨calls ++ before, c, ?_, e2, ?_⟩
  · rw [List.take_length_add_append]
    exact List.rel_append h1 e1
  · intro u' u'' f h4 h5
    rw [replay_then before hg] at h4
    exact e3 u' u'' f h4 h5

end

theorem wrap_comp (f : Failure) (v w : Err → Err) : (f.wrap v).wrap w = f.wrap fun e => w (v e) := by cases f <;> rfl

theorem wrap_self (f : Failure) : f.wrap (fun e => e) = f := by cases f <;> rfl

/-- Every paragraph is complete somewhere, and failing handlers fail there. -/
theorem course_breaks [Unicode] {fs : FileSystem} {lib : Err → Str} {root : Str} {k : Nat} {path label : Str} {n : Nat} {pg : Page}
    {bytes : List UInt8} {js : List (Meant × Str)} {out : Except Report Page} (h : Course fs lib root k path label n pg bytes js out) :
    (∃ b, pg.At b) → ∀ i x, js[i]? = some x → ∃ via place, Spot fs lib root k path label n pg bytes i via place ∧
      ∀ (σ : Type) (H : Handlers σ) (st : PState σ), pg.At st.builder → st.files.head? = some root → st.files.getLast? = some label →
        Breaks H st.user ((feedLines (parseItem fs H k) path n (readLines bytes) st).andThen (parseItem fs H k .eofItem [])) js i x via place := by
  induction h with
  | @done k path label n pg ms hr =>
    intro _ i x hx
    have hi : i < ms.length := by
      obtain ⟨hi, _⟩ := List.getElem?_eq_some_iff.1 hx
      simpa [labelled] using hi
    refine ⟨[], none, .done hr hi, fun σ H st h1 h2 h3 => ?_⟩
    obtain ⟨calls, b', e1, e2, e3, e4, e5⟩ := (at_ends H h1 h3).1 ms hr
    obtain ⟨c, a1, a2, a3⟩ := forall₂_at e1 hx
    refine ⟨calls.take i, c, a3, a2, fun u' u'' f h4 h5 => ?_⟩
    have := replay_fails (rest := calls.drop (i + 1)) h4 h5
    rw [← a1] at this
    obtain ⟨st', r1, r2⟩ := e5 u'' f this
    rw [show readLines [] = [] from rfl, feedLines, andThen_ok, parseItem_eof, r1]
    exact ⟨r2, by rw [show (fun e => nested (placed e none) []) = fun e => e from rfl, wrap_self]⟩
  | @wrong k path label n pg r hr => exact fun _ i x hx => by cases hx
  | @long k path label n pg bytes rest hf => exact fun _ i x hx => by cases hx
  | @missing k path label n pg bytes l rest name hf hL hm => exact fun _ i x hx => by cases hx
  | @line k path label n pg bytes l rest L ms pg' js out hf hL he hc ih =>
    intro hat i x hx
    by_cases hi : i < (labelled label ms).length
    · rw [List.getElem?_append_left hi] at hx
      refine ⟨[], some (path, n), .line hf hL he (by simpa [labelled] using hi), fun σ H st h1 h2 h3 => ?_⟩
      obtain ⟨b, rfl, hb⟩ := (firstLine_read hf).1 _ rfl
      obtain ⟨calls, e1, e2, e3⟩ := effect_runs H fs lib k (path := path) he hL h1 h3
      obtain ⟨c, a1, a2, a3⟩ := forall₂_at e1 hx
      refine ⟨calls.take i, c, by rw [List.take_append_of_le_length (by omega)]; exact a3, a2, fun u' u'' f h4 h5 => ?_⟩
      have := replay_fails (rest := calls.drop (i + 1)) h4 h5
      rw [← a1] at this
      obtain ⟨r1, r2⟩ := e3 u'' f this
      rw [hb, feedLines]
      generalize runLine (parseItem fs H k) (lineItems path (runes b)) st = r at r1 r2
      obtain ⟨st', o⟩ := r
      simp only at r1 r2
      subst r2
      exact ⟨r1, rfl⟩
    · have hsp : i = (labelled label ms).length + (i - (labelled label ms).length) := by omega
      rw [List.getElem?_append_right (by omega)] at hx
      obtain ⟨via, place, s1, s2⟩ := ih ((effect_keeps label he hL hat).2 _ rfl) _ x hx
      generalize i - (labelled label ms).length = i' at *
      subst hsp
      refine ⟨via, place, ?_, fun σ H st h1 h2 h3 => ?_⟩
      · have := Spot.later (label := label) (n := n) hf hL he s1
        simpa [labelled] using this
      obtain ⟨b, rfl, hb⟩ := (firstLine_read hf).1 _ rfl
      obtain ⟨calls, e1, e2, e3⟩ := effect_runs H fs lib k (path := path) he hL h1 h3
      rw [hb, feedLines]
      generalize runLine (parseItem fs H k) (lineItems path (runes b)) st = r at e2 e3
      obtain ⟨st', o⟩ := r
      generalize hg : H.replay calls st.user = y at e2 e3
      obtain ⟨w, _ | f⟩ := y
      · obtain ⟨e4, e5, _⟩ := e2 w rfl
        obtain ⟨e5, e6, e7⟩ := e5 pg' rfl
        simp only at e4 e5 e6 e7
        subst e5
        have := s2 σ H st' e6 (by rw [e7]; exact h2) (by rw [e7]; exact h3)
        rw [e4] at this
        exact this.later e1 hg rfl
      · obtain ⟨calls', c1⟩ := (course_keeps hc ((effect_keeps label he hL hat).2 _ rfl)).1
        exact .never e1 c1 hx hg
  | @fault k path label n pg bytes l rest L ms f hf hL he =>
    intro hat i x hx
    have hi : i < ms.length := by
      obtain ⟨hi, _⟩ := List.getElem?_eq_some_iff.1 hx
      simpa [labelled] using hi
    refine ⟨[], some (path, n), .line hf hL he hi, fun σ H st h1 h2 h3 => ?_⟩
    obtain ⟨b, rfl, hb⟩ := (firstLine_read hf).1 _ rfl
    obtain ⟨calls, e1, e2, e3⟩ := effect_runs H fs lib k (path := path) he hL h1 h3
    obtain ⟨c, a1, a2, a3⟩ := forall₂_at e1 hx
    refine ⟨calls.take i, c, a3, a2, fun u' u'' f h4 h5 => ?_⟩
    have := replay_fails (rest := calls.drop (i + 1)) h4 h5
    rw [← a1] at this
    obtain ⟨r1, r2⟩ := e3 u'' f this
    rw [hb, feedLines]
    generalize runLine (parseItem fs H k) (lineItems path (runes b)) st = r at r1 r2
    obtain ⟨st', o⟩ := r
    simp only at r1 r2
    subst r2
    exact ⟨r1, rfl⟩
  | @includes k path label n pg bytes l rest name b js pg' js' out hf hL hfs hc1 hc2 ih1 ih2 =>
    intro hat i x hx
    by_cases hi : i < js.length
    · rw [List.getElem?_append_left hi] at hx
      obtain ⟨via, place, s1, s2⟩ := ih1 hat i x hx
      refine ⟨_, place, .within hf hL hfs s1, fun σ H st h1 h2 h3 => ?_⟩
      obtain ⟨b', rfl, hb⟩ := (firstLine_read hf).1 _ rfl
      have hli : lineItems path (runes b') = _ := lineIs_items path hL
      obtain ⟨before, c, e1, e2, e3⟩ := s2 σ H { st with files := st.files ++ [splitDir path ++ name] } h1
        (by show (st.files ++ _).head? = _; rw [List.head?_append, h2]; rfl) (by simp)
      rw [hb, feedLines, hli, runLine_one]
      simp only [parseItem, hfs, lex, lexLoop_eq]
      refine ⟨before, c, by rw [List.take_append_of_le_length (by omega)]; exact e1, e2, fun u' u'' f h4 h5 => ?_⟩
      obtain ⟨e4, e5⟩ := e3 u' u'' f h4 h5
      generalize (feedLines (parseItem fs H k) (splitDir path ++ name) 1 (readLines b)
        ({ st with files := st.files ++ [splitDir path ++ name] } : PState σ)).andThen (parseItem fs H k .eofItem []) = r at e4 e5
      obtain ⟨st', o⟩ := r
      simp only at e4 e5
      subst e5
      refine ⟨e4, ?_⟩
      show some (((f.wrap _).wrap Err.errorAt).wrap _) = _
      rw [wrap_comp, wrap_comp]
      rfl
    · have hsp : i = js.length + (i - js.length) := by omega
      rw [List.getElem?_append_right (by omega)] at hx
      obtain ⟨via, place, s1, s2⟩ := ih2 ((course_keeps hc1 hat).2 _ rfl) _ x hx
      generalize i - js.length = i' at *
      subst hsp
      refine ⟨via, place, .after hf hL hfs hc1 s1, fun σ H st h1 h2 h3 => ?_⟩
      obtain ⟨b', rfl, hb⟩ := (firstLine_read hf).1 _ rfl
      have hli : lineItems path (runes b') = _ := lineIs_items path hL
      obtain ⟨calls, e1, e2⟩ := course_runs H hc1 { st with files := st.files ++ [splitDir path ++ name] } h1
        (by show (st.files ++ _).head? = _; rw [List.head?_append, h2]; rfl) (by simp)
      rw [hb, feedLines, hli, runLine_one]
      simp only [parseItem, hfs, lex, lexLoop_eq]
      generalize (feedLines (parseItem fs H k) (splitDir path ++ name) 1 (readLines b)
        ({ st with files := st.files ++ [splitDir path ++ name] } : PState σ)).andThen (parseItem fs H k .eofItem []) = r at e2
      obtain ⟨st', o⟩ := r
      simp only at e2
      generalize hg : H.replay calls st.user = y at e2
      obtain ⟨w, _ | f⟩ := y
      · obtain ⟨e3, e4, _⟩ := e2 w rfl
        obtain ⟨e4, e5, e6⟩ := e4 pg' rfl
        subst e4
        have ht : st'.files.take 1 = [root] := by
          cases hs : st'.files with
          | nil => rw [hs] at e6; cases e6
          | cons x xs =>
            rw [hs] at e6
            cases e6
            rfl
        have := s2 σ H { st' with files := st'.files.take 1 } e5 (by show (st'.files.take 1).head? = _; rw [ht]; rfl)
          (by show (st'.files.take 1).getLast? = _; rw [ht]; rfl)
        subst e3
        exact Breaks.later e1 hg (by rfl) this
      · obtain ⟨calls', c1⟩ := (course_keeps hc2 ((course_keeps hc1 hat).2 _ rfl)).1
        exact .never e1 c1 hx hg
  | @within k path label n pg bytes l rest name b js rep hf hL hfs _ ih =>
    intro hat i x hx
    obtain ⟨via, place, s1, s2⟩ := ih hat i x hx
    refine ⟨_, place, .within hf hL hfs s1, fun σ H st h1 h2 h3 => ?_⟩
    obtain ⟨b', rfl, hb⟩ := (firstLine_read hf).1 _ rfl
    have hli : lineItems path (runes b') = _ := lineIs_items path hL
    obtain ⟨before, c, e1, e2, e3⟩ := s2 σ H { st with files := st.files ++ [splitDir path ++ name] } h1
      (by show (st.files ++ _).head? = _; rw [List.head?_append, h2]; rfl) (by simp)
    rw [hb, feedLines, hli, runLine_one]
    simp only [parseItem, hfs, lex, lexLoop_eq]
    refine ⟨before, c, e1, e2, fun u' u'' f h4 h5 => ?_⟩
    obtain ⟨e4, e5⟩ := e3 u' u'' f h4 h5
    generalize (feedLines (parseItem fs H k) (splitDir path ++ name) 1 (readLines b)
      ({ st with files := st.files ++ [splitDir path ++ name] } : PState σ)).andThen (parseItem fs H k .eofItem []) = r at e4 e5
    obtain ⟨st', o⟩ := r
    simp only at e4 e5
    subst e5
    refine ⟨e4, ?_⟩
    show some (((f.wrap _).wrap Err.errorAt).wrap _) = _
    rw [wrap_comp, wrap_comp]
    rfl

theorem inclusion_no_effect {pg : Page} {name : Str} {ms : List Meant} {out : Except Fault Page} (h : Effect pg (.inclusion name) ms out) : False := by
  cases h with
  | wrong a => exact a

theorem same_line [Unicode] {bytes rest rest' : List UInt8} {l l' : Str} {L L' : Line} (a1 : FirstLine bytes (some l) rest) (a2 : LineIs l L)
    (b1 : FirstLine bytes (some l') rest') (b2 : LineIs l' L') : L = L' ∧ rest = rest' := by
  obtain ⟨e1, e2⟩ := firstLine_unique a1 b1
  cases e1
  exact ⟨lineIs_unique a2 b2, e2⟩

/-- Only paragraphs of the reading are complete somewhere. -/
theorem spot_lt [Unicode] {fs : FileSystem} {lib : Err → Str} {root : Str} {k : Nat} {path label : Str} {n : Nat} {pg : Page} {bytes : List UInt8}
    {i : Nat} {via : List (Str × Nat)} {place : Option (Str × Nat)} (h : Spot fs lib root k path label n pg bytes i via place) :
    ∀ {js : List (Meant × Str)} {out : Except Report Page}, Course fs lib root k path label n pg bytes js out → i < js.length := by
  induction h with
  | done hr hi =>
    intro js out hc
    cases hc with
    | done hr' => cases ends_unique hr hr'; simpa [labelled] using hi
    | wrong hr' => cases ends_unique hr hr'
    | long hf => exact (firstLine_nil hf).elim
    | line hf => exact (firstLine_nil hf).elim
    | fault hf => exact (firstLine_nil hf).elim
    | missing hf => exact (firstLine_nil hf).elim
    | includes hf => exact (firstLine_nil hf).elim
    | within hf => exact (firstLine_nil hf).elim
  | line hf hL he hi =>
    intro js out hc
    cases hc with
    | done => exact (firstLine_nil hf).elim
    | wrong => exact (firstLine_nil hf).elim
    | long hf' => cases (firstLine_unique hf hf').1
    | line hf' hL' he' =>
      obtain ⟨rfl, rfl⟩ := same_line hf hL hf' hL'
      obtain ⟨rfl, _⟩ := effect_unique he he'
      simp only [labelled, List.length_append, List.length_map]
      omega
    | fault hf' hL' he' =>
      obtain ⟨rfl, rfl⟩ := same_line hf hL hf' hL'
      obtain ⟨rfl, _⟩ := effect_unique he he'
      simpa [labelled] using hi
    | missing hf' hL' =>
      obtain ⟨rfl, rfl⟩ := same_line hf hL hf' hL'
      exact (inclusion_no_effect he).elim
    | includes hf' hL' =>
      obtain ⟨rfl, rfl⟩ := same_line hf hL hf' hL'
      exact (inclusion_no_effect he).elim
    | within hf' hL' =>
      obtain ⟨rfl, rfl⟩ := same_line hf hL hf' hL'
      exact (inclusion_no_effect he).elim
  | later hf hL he _ ih =>
    intro js out hc
    cases hc with
    | done => exact (firstLine_nil hf).elim
    | wrong => exact (firstLine_nil hf).elim
    | long hf' => cases (firstLine_unique hf hf').1
    | line hf' hL' he' hc' =>
      obtain ⟨rfl, rfl⟩ := same_line hf hL hf' hL'
      obtain ⟨rfl, e⟩ := effect_unique he he'
      cases e
      have := ih hc'
      simp only [labelled, List.length_append, List.length_map]
      omega
    | fault hf' hL' he' =>
      obtain ⟨rfl, rfl⟩ := same_line hf hL hf' hL'
      cases (effect_unique he he').2
    | missing hf' hL' =>
      obtain ⟨rfl, rfl⟩ := same_line hf hL hf' hL'
      exact (inclusion_no_effect he).elim
    | includes hf' hL' =>
      obtain ⟨rfl, rfl⟩ := same_line hf hL hf' hL'
      exact (inclusion_no_effect he).elim
    | within hf' hL' =>
      obtain ⟨rfl, rfl⟩ := same_line hf hL hf' hL'
      exact (inclusion_no_effect he).elim
  | within hf hL hb _ ih =>
    intro js out hc
    cases hc with
    | done => exact (firstLine_nil hf).elim
    | wrong => exact (firstLine_nil hf).elim
    | long hf' => cases (firstLine_unique hf hf').1
    | line hf' hL' he' =>
      obtain ⟨rfl, rfl⟩ := same_line hf hL hf' hL'
      exact (inclusion_no_effect he').elim
    | fault hf' hL' he' =>
      obtain ⟨rfl, rfl⟩ := same_line hf hL hf' hL'
      exact (inclusion_no_effect he').elim
    | missing hf' hL' hm =>
      obtain ⟨e, rfl⟩ := same_line hf hL hf' hL'
      cases e
      rcases hm with hm | hm
      · rw [hm] at hb; cases hb
      · cases hm
    | includes hf' hL' hb' hc1 _ =>
      obtain ⟨e, rfl⟩ := same_line hf hL hf' hL'
      cases e
      cases hb.symm.trans hb'
      have := ih hc1
      simp only [List.length_append]
      omega
    | within hf' hL' hb' hc1 =>
      obtain ⟨e, rfl⟩ := same_line hf hL hf' hL'
      cases e
      cases hb.symm.trans hb'
      exact ih hc1
  | after hf hL hb hc0 _ ih =>
    intro js out hc
    cases hc with
    | done => exact (firstLine_nil hf).elim
    | wrong => exact (firstLine_nil hf).elim
    | long hf' => cases (firstLine_unique hf hf').1
    | line hf' hL' he' =>
      obtain ⟨rfl, rfl⟩ := same_line hf hL hf' hL'
      exact (inclusion_no_effect he').elim
    | fault hf' hL' he' =>
      obtain ⟨rfl, rfl⟩ := same_line hf hL hf' hL'
      exact (inclusion_no_effect he').elim
    | missing hf' hL' hm =>
      obtain ⟨e, rfl⟩ := same_line hf hL hf' hL'
      cases e
      rcases hm with hm | hm
      · rw [hm] at hb; cases hb
      · cases hm
    | includes hf' hL' hb' hc1 hc2 =>
      obtain ⟨e, rfl⟩ := same_line hf hL hf' hL'
      cases e
      cases hb.symm.trans hb'
      obtain ⟨rfl, e⟩ := course_unique hc0 hc1
      cases e
      have := ih hc2
      simp only [List.length_append]
      omega
    | within hf' hL' hb' hc1 =>
      obtain ⟨e, rfl⟩ := same_line hf hL hf' hL'
      cases e
      cases hb.symm.trans hb'
      cases (course_unique hc0 hc1).2

/-- A paragraph is complete in one place. -/
theorem spot_unique [Unicode] {fs : FileSystem} {lib : Err → Str} {root : Str} {k : Nat} {path label : Str} {n : Nat} {pg : Page} {bytes : List UInt8}
    {i : Nat} {via : List (Str × Nat)} {place : Option (Str × Nat)} (h : Spot fs lib root k path label n pg bytes i via place) :
    ∀ {i' : Nat} {via' : List (Str × Nat)} {place' : Option (Str × Nat)}, Spot fs lib root k path label n pg bytes i' via' place' → i = i' →
      via = via' ∧ place = place' := by
  induction h with
  | done hr hi =>
    intro i' via' place' h' e
    cases h' with
    | done => exact ⟨rfl, rfl⟩
    | line hf => exact (firstLine_nil hf).elim
    | later hf => exact (firstLine_nil hf).elim
    | within hf => exact (firstLine_nil hf).elim
    | after hf => exact (firstLine_nil hf).elim
  | line hf hL he hi =>
    intro i' via' place' h' e
    cases h' with
    | done => exact (firstLine_nil hf).elim
    | line hf => exact ⟨rfl, rfl⟩
    | later hf' hL' he' =>
      obtain ⟨rfl, rfl⟩ := same_line hf hL hf' hL'
      obtain ⟨rfl, _⟩ := effect_unique he he'
      omega
    | within hf' hL' =>
      obtain ⟨rfl, rfl⟩ := same_line hf hL hf' hL'
      exact (inclusion_no_effect he).elim
    | after hf' hL' =>
      obtain ⟨rfl, rfl⟩ := same_line hf hL hf' hL'
      exact (inclusion_no_effect he).elim
  | later hf hL he _ ih =>
    intro i' via' place' h' e
    cases h' with
    | done => exact (firstLine_nil hf).elim
    | line hf' hL' he' hi =>
      obtain ⟨rfl, rfl⟩ := same_line hf hL hf' hL'
      obtain ⟨rfl, _⟩ := effect_unique he he'
      omega
    | later hf' hL' he' hs =>
      obtain ⟨rfl, rfl⟩ := same_line hf hL hf' hL'
      obtain ⟨rfl, e2⟩ := effect_unique he he'
      cases e2
      exact ih hs (by omega)
    | within hf' hL' =>
      obtain ⟨rfl, rfl⟩ := same_line hf hL hf' hL'
      exact (inclusion_no_effect he).elim
    | after hf' hL' =>
      obtain ⟨rfl, rfl⟩ := same_line hf hL hf' hL'
      exact (inclusion_no_effect he).elim
  | within hf hL hb hs0 ih =>
    intro i' via' place' h' e
    cases h' with
    | done => exact (firstLine_nil hf).elim
    | line hf' hL' he' =>
      obtain ⟨rfl, rfl⟩ := same_line hf hL hf' hL'
      exact (inclusion_no_effect he').elim
    | later hf' hL' he' =>
      obtain ⟨rfl, rfl⟩ := same_line hf hL hf' hL'
      exact (inclusion_no_effect he').elim
    | within hf' hL' hb' hs =>
      obtain ⟨e1, rfl⟩ := same_line hf hL hf' hL'
      cases e1
      cases hb.symm.trans hb'
      obtain ⟨rfl, rfl⟩ := ih hs e
      exact ⟨rfl, rfl⟩
    | after hf' hL' hb' hc hs =>
      obtain ⟨e1, rfl⟩ := same_line hf hL hf' hL'
      cases e1
      cases hb.symm.trans hb'
      have := spot_lt hs0 hc
      omega
  | after hf hL hb hc0 hs0 ih =>
    intro i' via' place' h' e
    cases h' with
    | done => exact (firstLine_nil hf).elim
    | line hf' hL' he' =>
      obtain ⟨rfl, rfl⟩ := same_line hf hL hf' hL'
      exact (inclusion_no_effect he').elim
    | later hf' hL' he' =>
      obtain ⟨rfl, rfl⟩ := same_line hf hL hf' hL'
      exact (inclusion_no_effect he').elim
    | within hf' hL' hb' hs =>
      obtain ⟨e1, rfl⟩ := same_line hf hL hf' hL'
      cases e1
      cases hb.symm.trans hb'
      have := spot_lt hs hc0
      omega
    | after hf' hL' hb' hc hs =>
      obtain ⟨e1, rfl⟩ := same_line hf hL hf' hL'
      cases e1
      cases hb.symm.trans hb'
      obtain ⟨rfl, e2⟩ := course_unique hc0 hc
      cases e2
      exact ih hs (by omega)

end Gledger
