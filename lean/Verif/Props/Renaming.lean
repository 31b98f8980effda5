/-
C131: the names of accounts are only names in the balance report and in the list of accounts: under other names the same lines appear.
-/
import Verif.Props.SumsOnly
import Verif.Spec.Renaming

namespace Gledger

/-! ### Paths under other names -/

section
variable {f : Str → Str}

theorem map_prefix_map (hf : Function.Injective f) {cs ds : List Str} : cs.map f <+: ds.map f ↔ cs <+: ds := by
  constructor
  · intro h
    have e := List.prefix_iff_eq_take.1 h
    rw [List.length_map, ← List.map_take] at e
    rw [List.prefix_iff_eq_take]
    exact hf.list_map e
  · exact fun h => h.map f

theorem prefix_map_image {cs' ds : List Str} (h : cs' <+: ds.map f) : ∃ cs, cs <+: ds ∧ cs' = cs.map f := by
  refine ⟨ds.take cs'.length, List.take_prefix _ _, ?_⟩
  rw [List.map_take]
  exact List.prefix_iff_eq_take.1 h

theorem getLast_map (cs : List Str) : (cs.map f).getLast? = cs.getLast?.map f := List.getLast?_map

theorem reserved_map (hf : Function.Injective f) (hR : ∀ c, Reserved c → f c = c) (c : Str) : Reserved (f c) ↔ Reserved c := by
  constructor
  · intro h
    have := hf (hR _ h)
    rwa [this] at h
  · intro h
    rw [hR c h]
    exact h

theorem root_map (hf : Function.Injective f) (hR : ∀ c, Reserved c → f c = c) (c : Str) : f c = rootID ↔ c = rootID := by
  have h0 : f rootID = rootID := hR _ (Or.inl rfl)
  exact ⟨fun h => hf (h.trans h0.symm), fun h => by rw [h, h0]⟩

theorem spelled_map (hf : Function.Injective f) (hR : ∀ c, Reserved c → f c = c) (cs : List Str) : spelledNames (cs.map f) = (spelledNames cs).map f := by
  induction cs with
  | nil => rfl
  | cons c cs ih =>
    rw [List.map_cons, spelledNames, spelledNames]
    have : (∃ d ∈ (f c :: cs.map f).dropLast, Reserved d) ↔ ∃ d ∈ (c :: cs).dropLast, Reserved d := by
      rw [← List.map_cons, ← List.map_dropLast]
      constructor
      · rintro ⟨d, hd, h⟩
        obtain ⟨x, hx, rfl⟩ := List.mem_map.1 hd
        exact ⟨x, hx, (reserved_map hf hR x).1 h⟩
      · rintro ⟨d, hd, h⟩
        exact ⟨f d, List.mem_map_of_mem hd, (reserved_map hf hR d).2 h⟩
    by_cases h : ∃ d ∈ (c :: cs).dropLast, Reserved d
    · rw [if_pos (this.2 h), if_pos h, ih]
    · rw [if_neg (fun h' => h (this.1 h')), if_neg h]
      rfl

/-! ### What is shown -/

/-- Under other names the same accounts are posted to, with the same amounts. -/
structure UnderNames (f : Str → Str) (ps' ps : List Posting) : Prop where
  forth : ∀ p ∈ ps, ∃ p' ∈ ps', p'.components = p.components.map f
  back : ∀ p' ∈ ps', ∃ p ∈ ps, p'.components = p.components.map f
  tallies : ∀ cs, tally (below (cs.map f) ps') = tally (below cs ps)

theorem UnderNames.value {ps ps' : List Posting} (h : UnderNames f ps' ps) (cs : List Str) : valueOf (below (cs.map f) ps') = valueOf (below cs ps) :=
  congrArg Amount.quantity (h.tallies cs)

theorem UnderNames.shown (hf : Function.Injective f) (hR : ∀ c, Reserved c → f c = c) {ps ps' : List Posting} (h : UnderNames f ps' ps) {sz : Bool}
    (cs : List Str) : Shown sz ps' (cs.map f) ↔ Shown sz ps cs := by
  unfold Shown
  refine and_congr ?_ (or_congr Iff.rfl ?_)
  · rw [List.map_eq_nil_iff]
    refine or_congr Iff.rfl ⟨?_, ?_⟩
    · rintro ⟨p', hp', hc⟩
      obtain ⟨p, hp, e⟩ := h.back p' hp'
      rw [e, map_prefix_map hf] at hc
      exact ⟨p, hp, hc⟩
    · rintro ⟨p, hp, hc⟩
      obtain ⟨p', hp', e⟩ := h.forth p hp
      exact ⟨p', hp', by rw [e, map_prefix_map hf]; exact hc⟩
  · constructor
    · intro k es he hn
      have := k (es.map f) ((map_prefix_map hf).2 he) (by simpa using hn)
      rw [h.value, getLast_map] at this
      refine this.imp id fun hl => ?_
      obtain ⟨x, hx, e⟩ := Option.map_eq_some_iff.1 hl
      rw [hx, (root_map hf hR x).1 e]
    · intro k es' he hn
      obtain ⟨es, hes, rfl⟩ := prefix_map_image he
      rw [h.value, getLast_map]
      refine (k es hes (by simpa using hn)).imp id fun hl => ?_
      rw [hl, Option.map_some, (root_map hf hR rootID).2 rfl]

theorem UnderNames.image {ps ps' : List Posting} (h : UnderNames f ps' ps) {sz : Bool} {cs' : List Str} (hs : Shown sz ps' cs') :
    ∃ cs : List Str, cs' = cs.map f := by
  rcases hs.1 with rfl | ⟨p', hp', hc⟩
  · exact ⟨[], rfl⟩
  · obtain ⟨p, _, e⟩ := h.back p' hp'
    rw [e] at hc
    obtain ⟨cs, _, e⟩ := prefix_map_image hc
    exact ⟨cs, e⟩

theorem UnderNames.child (hf : Function.Injective f) (hR : ∀ c, Reserved c → f c = c) {ps ps' : List Posting} (h : UnderNames f ps' ps) {sz : Bool}
    {cs : List Str} {c : Str} (hs : Shown sz ps' (cs.map f ++ [c])) : ∃ d, c = f d ∧ Shown sz ps (cs ++ [d]) := by
  obtain ⟨ds, e⟩ := h.image hs
  rw [e, h.shown hf hR] at hs
  have hlen : ds.length = cs.length + 1 := by
    have := congrArg List.length e
    simpa using this.symm
  have hd : ∃ d, ds.drop cs.length = [d] := by
    have : (ds.drop cs.length).length = 1 := by rw [List.length_drop]; omega
    exact List.length_eq_one_iff.1 this
  obtain ⟨d, hd⟩ := hd
  have hl : ds.take cs.length = cs := by
    apply hf.list_map
    rw [List.map_take, ← e, List.take_left' (by simp)]
  have hds : ds = cs ++ [d] := by rw [← List.take_append_drop cs.length ds, hl, hd]
  subst hds
  refine ⟨d, ?_, hs⟩
  rw [List.map_append] at e
  simpa using e

theorem UnderNames.leaf (hf : Function.Injective f) (hR : ∀ c, Reserved c → f c = c) {ps ps' : List Posting} (h : UnderNames f ps' ps) {sz : Bool} (cs : List Str) :
    (∀ c, ¬ Shown sz ps' (cs.map f ++ [c])) ↔ ∀ c, ¬ Shown sz ps (cs ++ [c]) := by
  constructor
  · intro k c hs
    refine k (f c) ?_
    rw [← h.shown hf hR, List.map_append] at hs
    exact hs
  · intro k c hs
    obtain ⟨d, _, hd⟩ := h.child hf hR hs
    exact k d hd

theorem UnderNames.one (hf : Function.Injective f) (hR : ∀ c, Reserved c → f c = c) {ps ps' : List Posting} (h : UnderNames f ps' ps) {sz : Bool} (cs : List Str) :
    OneBelow (Shown sz ps') (cs.map f) ↔ OneBelow (Shown sz ps) cs := by
  constructor
  · rintro ⟨c, hs, hu⟩
    obtain ⟨d, rfl, hd⟩ := h.child hf hR hs
    refine ⟨d, hd, fun x hx => hf (hu _ ?_)⟩
    rw [← h.shown hf hR, List.map_append] at hx
    exact hx
  · rintro ⟨d, hd, hu⟩
    refine ⟨f d, ?_, fun c hc => ?_⟩
    · rw [← h.shown hf hR, List.map_append] at hd
      exact hd
    · obtain ⟨x, rfl, hx⟩ := h.child hf hR hc
      rw [hu x hx]

/-! ### The lines -/

theorem pathLt_map {N : Str → Prop} (hm : ∀ c d, N c → N d → StrLt c d → StrLt (f c) (f d)) {cs ds : List Str} (h : PathLt cs ds) (hc : ∀ c ∈ cs, N c)
    (hd : ∀ c ∈ ds, N c) : PathLt (cs.map f) (ds.map f) := by
  unfold PathLt at h ⊢
  induction h with
  | nil => exact List.Lex.nil
  | cons _ ih => exact List.Lex.cons (ih (fun c h => hc c (List.mem_cons_of_mem _ h)) fun c h => hd c (List.mem_cons_of_mem _ h))
  | rel h => exact List.Lex.rel (hm _ _ (hc _ (by simp)) (hd _ (by simp)) h)

theorem pathLt_nodup {L : List (List Str)} (h : L.Pairwise PathLt) : L.Nodup :=
  List.Pairwise.imp (R := PathLt) (S := fun a b => a ≠ b) (fun {a b} hab e => PathLt.irrefl b (by rw [e] at hab; exact hab)) h

/-- The same accounts under other names, in order. -/
theorem renamed_order (hf : Function.Injective f) {L L' : List (List Str)} (h1 : L.Pairwise PathLt) (h2 : L'.Pairwise PathLt)
    (h : ∀ cs', cs' ∈ L' ↔ ∃ cs ∈ L, cs' = cs.map f) : L'.Perm (L.map (List.map f)) ∧
      ∀ N : Str → Prop, (∀ cs ∈ L, ∀ c ∈ cs, N c) → (∀ c d, N c → N d → StrLt c d → StrLt (f c) (f d)) → L' = L.map (List.map f) := by
  have hm : ∀ cs', cs' ∈ L' ↔ cs' ∈ L.map (List.map f) := by
    intro cs'
    rw [h, List.mem_map]
    exact ⟨fun ⟨a, b, c⟩ => ⟨a, b, c.symm⟩, fun ⟨a, b, c⟩ => ⟨a, b, c.symm⟩⟩
  have n1 : L.Nodup := pathLt_nodup h1
  have n2 : L'.Nodup := pathLt_nodup h2
  refine ⟨(List.perm_ext_iff_of_nodup n2 (n1.map hf.list_map)).2 hm, fun N hN hmono => ?_⟩
  refine pairwise_unique PathLt.irrefl (fun _ _ _ => PathLt.trans) h2 ?_ hm
  rw [List.pairwise_map]
  exact h1.imp_of_mem fun ha hb hab => pathLt_map hmono hab (hN _ ha) (hN _ hb)

/-- Lines made of such lists of accounts. -/
theorem renamed_lines {L L' : List (List Str)} {line line' : List Str → BalanceLine}
    (hl : ∀ cs ∈ L, line' (cs.map f) = (line cs).rename f) :
    (L'.Perm (L.map (List.map f)) → (L'.map line').Perm ((L.map line).map (BalanceLine.rename f))) ∧
    (L' = L.map (List.map f) → L'.map line' = (L.map line).map (BalanceLine.rename f)) := by
  have e : (L.map (List.map f)).map line' = (L.map line).map (BalanceLine.rename f) := by
    rw [List.map_map, List.map_map]
    exact List.map_congr_left hl
  exact ⟨fun h => e ▸ h.map line', fun h => by rw [h, e]⟩

theorem joinPath_single (x : Str) : joinPath [x] = x := rfl

theorem getLastD_map {cs : List Str} (h : cs ≠ []) : (cs.map f).getLastD [] = f (cs.getLastD []) := by
  rw [List.getLastD_eq_getLast?, List.getLastD_eq_getLast?, getLast_map]
  cases hc : cs.getLast? with
  | none => exact absurd (List.getLast?_eq_none_iff.1 hc) h
  | some x => rfl

/-- Reports about the same accounts under other names: the same lines, with the same amounts and indentation, under the other names; in the same
order if the names are. -/
theorem renamed_reports (hf : Function.Injective f) (hR : ∀ c, Reserved c → f c = c) {ps ps' : List Posting} (h : UnderNames f ps' ps)
    {sz flatten collapse : Bool} {text text' : Str} (R : BalanceReport sz flatten collapse ps text) (R' : BalanceReport sz flatten collapse ps' text') :
    ∃ ls ls' : List BalanceLine, text = joinLines (ls.map BalanceLine.text) ++ footer (tally ps) ∧
      text' = joinLines (ls'.map BalanceLine.text) ++ footer (tally ps) ∧ ls'.Perm (ls.map (BalanceLine.rename f)) ∧
      ((∀ c d, (∃ p ∈ ps, c ∈ p.components) → (∃ p ∈ ps, d ∈ p.components) → StrLt c d → StrLt (f c) (f d)) → ls' = ls.map (BalanceLine.rename f)) := by
  have hN : ∀ cs, Shown sz ps cs → ∀ c ∈ cs, ∃ p ∈ ps, c ∈ p.components := by
    intro cs hs c hc
    rcases hs.1 with rfl | ⟨p, hp, hpre⟩
    · cases hc
    · exact ⟨p, hp, hpre.subset hc⟩
  have ht : tally ps' = tally ps := by
    have := h.tallies []
    rwa [List.map_nil, below_nil, below_nil] at this
  unfold BalanceReport at R R'
  cases flatten with
  | true =>
    rw [if_pos rfl] at R R'
    obtain ⟨L, a1, a2, rfl⟩ := R
    obtain ⟨L', b1, b2, rfl⟩ := R'
    obtain ⟨o1, o2⟩ := renamed_order hf a1 b1 fun cs' => by
      rw [b2]
      constructor
      · rintro ⟨x, y⟩
        obtain ⟨cs, rfl⟩ := h.image x
        exact ⟨cs, (a2 cs).2 ⟨(h.shown hf hR cs).1 x, (h.leaf hf hR cs).1 y⟩, rfl⟩
      · rintro ⟨cs, hcs, rfl⟩
        obtain ⟨x, y⟩ := (a2 cs).1 hcs
        exact ⟨(h.shown hf hR cs).2 x, (h.leaf hf hR cs).2 y⟩
    obtain ⟨k1, k2⟩ := renamed_lines (f := f) (L := L) (L' := L') (line := fun cs => ⟨cs, tally (below cs ps), 0, spelledNames cs⟩)
      (line' := fun cs => ⟨cs, tally (below cs ps'), 0, spelledNames cs⟩) fun cs _ => by
        simp only [BalanceLine.rename, h.tallies cs, spelled_map hf hR]
    refine ⟨_, _, ?_, ?_, k1 o1, fun hm => k2 (o2 _ (fun cs hcs => hN cs ((a2 cs).1 hcs).1) hm)⟩
    · simp [BalanceLine.text, Function.comp_def]
    · rw [ht]; simp [BalanceLine.text, Function.comp_def]
  | false =>
    rw [if_neg (by simp)] at R R'
    cases collapse with
    | false =>
      rw [if_neg (by simp)] at R R'
      obtain ⟨L, a1, a2, rfl⟩ := R
      obtain ⟨L', b1, b2, rfl⟩ := R'
      obtain ⟨o1, o2⟩ := renamed_order hf a1 b1 fun cs' => by
        rw [b2]
        constructor
        · rintro ⟨x, y⟩
          obtain ⟨cs, rfl⟩ := h.image x
          exact ⟨cs, (a2 cs).2 ⟨(h.shown hf hR cs).1 x, by simpa using y⟩, rfl⟩
        · rintro ⟨cs, hcs, rfl⟩
          obtain ⟨x, y⟩ := (a2 cs).1 hcs
          exact ⟨(h.shown hf hR cs).2 x, by simpa using y⟩
      obtain ⟨k1, k2⟩ := renamed_lines (f := f) (L := L) (L' := L') (line := fun cs => ⟨cs, tally (below cs ps), cs.length - 1, [cs.getLastD []]⟩)
        (line' := fun cs => ⟨cs, tally (below cs ps'), cs.length - 1, [cs.getLastD []]⟩) fun cs hcs => by
          simp only [BalanceLine.rename, h.tallies cs, getLastD_map ((a2 cs).1 hcs).2, List.length_map, List.map_cons, List.map_nil]
      refine ⟨_, _, ?_, ?_, k1 o1, fun hm => k2 (o2 _ (fun cs hcs => hN cs ((a2 cs).1 hcs).1) hm)⟩
      · simp [BalanceLine.text, Function.comp_def, joinPath_single]
      · rw [ht]; simp [BalanceLine.text, Function.comp_def, joinPath_single]
    | true =>
      rw [if_pos rfl] at R R'
      obtain ⟨L, one, a1, a0, a2, rfl⟩ := R
      obtain ⟨L', one', b1, b0, b2, rfl⟩ := R'
      have h1 : ∀ cs, Shown sz ps cs → one' (cs.map f) = one cs := by
        intro cs hs
        have := ((a0 cs hs).trans (h.one hf hR cs).symm).trans (b0 _ ((h.shown hf hR cs).2 hs)).symm
        cases h1 : one cs <;> cases h2 : one' (cs.map f) <;> simp_all
      obtain ⟨o1, o2⟩ := renamed_order hf a1 b1 fun cs' => by
        rw [b2]
        constructor
        · rintro ⟨x, y, z⟩
          obtain ⟨cs, rfl⟩ := h.image x
          have x' := (h.shown hf hR cs).1 x
          exact ⟨cs, (a2 cs).2 ⟨x', by simpa using y, by rw [← h1 cs x']; exact z⟩, rfl⟩
        · rintro ⟨cs, hcs, rfl⟩
          obtain ⟨x, y, z⟩ := (a2 cs).1 hcs
          exact ⟨(h.shown hf hR cs).2 x, by simpa using y, by rw [h1 cs x]; exact z⟩
      have hst : ∀ cs, Shown sz ps cs → stopsBy one' (cs.map f) = stopsBy one cs := by
        intro cs hs
        unfold stopsBy
        rw [List.length_map]
        refine List.filter_congr fun i _ => ?_
        rw [← List.map_take, h1 _ (hs.up (List.take_prefix i cs))]
      obtain ⟨k1, k2⟩ := renamed_lines (f := f) (L := L) (L' := L') (line := fun cs => ⟨cs, tally (below cs ps), levelBy one cs, chainBy one cs⟩)
        (line' := fun cs => ⟨cs, tally (below cs ps'), levelBy one' cs, chainBy one' cs⟩) fun cs hcs => by
          simp only [BalanceLine.rename, h.tallies cs, levelBy, chainBy, hst cs ((a2 cs).1 hcs).1, List.map_drop]
      refine ⟨_, _, ?_, ?_, k1 o1, fun hm => k2 (o2 _ (fun cs hcs => hN cs ((a2 cs).1 hcs).1) hm)⟩
      · simp [BalanceLine.text, Function.comp_def]
      · rw [ht]; simp [BalanceLine.text, Function.comp_def]

/-! ### From postings -/

theorem below_renamed (hf : Function.Injective f) {ps ps' : List Posting} (h : List.Forall₂ (Posting.Renamed f) ps' ps) (cs : List Str) :
    List.Forall₂ (Posting.Renamed f) (below (cs.map f) ps') (below cs ps) := by
  unfold below
  induction h with
  | nil => exact .nil
  | @cons p' p ps' ps h1 _ ih =>
    rw [List.filter_cons, List.filter_cons]
    have : (decide (cs.map f <+: p'.components)) = decide (cs <+: p.components) := by
      rw [h1.1]
      exact decide_eq_decide.2 (map_prefix_map hf)
    rw [this]
    split
    · exact .cons h1 ih
    · exact ih

theorem tally_renamed {ps ps' : List Posting} (h : List.Forall₂ (Posting.Renamed f) ps' ps) : tally ps' = tally ps := by
  have e1 : ps'.map Posting.value = ps.map Posting.value := by
    induction h with
    | nil => rfl
    | cons h1 _ ih => rw [List.map_cons, List.map_cons, ih]; unfold Posting.value; rw [h1.2]
  have e2 : (ps'.filterMap fun p => p.amount.map Amount.commodity) = ps.filterMap fun p => p.amount.map Amount.commodity := by
    clear e1
    induction h with
    | nil => rfl
    | cons h1 _ ih => rw [List.filterMap_cons, List.filterMap_cons, ih, h1.2]
  unfold tally firstCommodity writtenCommodities
  rw [e1, e2]

theorem underNames_of (hf : Function.Injective f) {ps ps' : List Posting} (h : List.Forall₂ (Posting.Renamed f) ps' ps) : UnderNames f ps' ps where
  forth := fun p hp => by
    obtain ⟨b, hb, hr⟩ := forall₂_mem_left h.flip hp
    exact ⟨b, hb, hr.1⟩
  back := fun p hp => by
    obtain ⟨b, hb, hr⟩ := forall₂_mem_left h hp
    exact ⟨b, hb, hr.1⟩
  tallies := fun cs => tally_renamed (below_renamed hf h cs)

/-- Reports of the same postings to accounts under other names: the same lines, with the same amounts and indentation, under the other names; in the
same order if the names are. -/
theorem C131_reports (hf : Function.Injective f) (hR : ∀ c, Reserved c → f c = c) {ps ps' : List Posting} (h : List.Forall₂ (Posting.Renamed f) ps' ps)
    {sz flatten collapse : Bool} {text text' : Str} (R : BalanceReport sz flatten collapse ps text) (R' : BalanceReport sz flatten collapse ps' text') :
    ∃ ls ls' : List BalanceLine, text = joinLines (ls.map BalanceLine.text) ++ footer (tally ps) ∧
      text' = joinLines (ls'.map BalanceLine.text) ++ footer (tally ps) ∧ ls'.Perm (ls.map (BalanceLine.rename f)) ∧
      ((∀ c d, (∃ p ∈ ps, c ∈ p.components) → (∃ p ∈ ps, d ∈ p.components) → StrLt c d → StrLt (f c) (f d)) → ls' = ls.map (BalanceLine.rename f)) :=
  renamed_reports hf hR (underNames_of hf h) R R'

end

/-! ### Runs -/

section
variable [Unicode] {m m' : Machine} {o o' : Options} {args args' : List Str} {bytes bytes' : List UInt8} {js js' : List (Meant × Str)}
  {filters filters' : List Filter} {admits admits' : Date → Bool} {path path' : Str} {f : Str → Str}

/-- Two runs of `balance` in the same form, on whatever journals, with whatever arguments, where the same is posted under other names, in one
commodity: the same lines with the same amounts and indentation under the other names, and the same total; if the order of the names is the same,
in the same order. -/
theorem C131_runs (hf : Function.Injective f) (hR : ∀ c, Reserved c → f c = c) (g : Setting m o args bytes filters admits path) {pg pg' : Page}
    (r : Reading m.fs m.lib m.maxOpen path bytes js (.ok pg)) (hs : ¬ Command.balance.Short filters admits (meanings js))
    (g' : Setting m' o' args' bytes' filters' admits' path') (r' : Reading m'.fs m'.lib m'.maxOpen path' bytes' js' (.ok pg'))
    (hs' : ¬ Command.balance.Short filters' admits' (meanings js')) (h0 : o.showZero = o'.showZero) (h1 : o.flatten = o'.flatten) (h2 : o.collapse = o'.collapse)
    {c : Str} (hc : ∀ p ∈ askedPostings filters admits (meanings js), ∀ a ∈ p.amount, a.commodity = c) {qs : List Posting}
    (hp : (askedPostings filters' admits' (meanings js')).Perm qs) (hq : List.Forall₂ (Posting.Renamed f) qs (askedPostings filters admits (meanings js))) :
    ∃ (ls ls' : List BalanceLine) (total : Amount),
      m.run o .balance args = ⟨joinLines (ls.map BalanceLine.text) ++ footer total, .exit 0⟩ ∧
      m'.run o' .balance args' = ⟨joinLines (ls'.map BalanceLine.text) ++ footer total, .exit 0⟩ ∧ ls'.Perm (ls.map (BalanceLine.rename f)) ∧
      ((∀ c d, (∃ p ∈ askedPostings filters admits (meanings js), c ∈ p.components) → (∃ p ∈ askedPostings filters admits (meanings js), d ∈ p.components) →
        StrLt c d → StrLt (f c) (f d)) → ls' = ls.map (BalanceLine.rename f)) := by
  obtain ⟨d1, d2, _⟩ := C99_parsed r
  obtain ⟨qss, text, q1, q2, q3⟩ := Heard.balance (js := js) ⟨g, d1⟩ (d2 pg rfl) hs
  obtain ⟨d1', d2', _⟩ := C99_parsed r'
  obtain ⟨qss', text', q1', q2', q3'⟩ := Heard.balance (js := js') ⟨g', d1'⟩ (d2' pg' rfl) hs'
  have p1 : qss.flatten.Perm (askedPostings filters admits (meanings js)) := taken_perm q1
  have p2 : qss'.flatten.Perm qs := (show qss'.flatten.Perm (askedPostings filters' admits' (meanings js')) from taken_perm q1').trans hp
  have c1 : ∀ p ∈ qss.flatten, ∀ a ∈ p.amount, a.commodity = c := fun p hp => hc p (p1.subset hp)
  have c2 : ∀ p ∈ qss'.flatten, ∀ a ∈ p.amount, a.commodity = c := by
    intro p hp a ha
    obtain ⟨b, hb, hr⟩ := forall₂_mem_left hq (p2.subset hp)
    exact hc b hb a (by rw [← hr.2]; exact ha)
  have u := underNames_of hf hq
  have un : UnderNames f qss'.flatten qss.flatten := by
    refine ⟨fun p hp => ?_, fun p hp => ?_, fun cs => ?_⟩
    · obtain ⟨p', hp', e⟩ := u.forth p (p1.subset hp)
      exact ⟨p', p2.symm.subset hp', e⟩
    · obtain ⟨p', hp', e⟩ := u.back p (p2.subset hp)
      exact ⟨p', p1.symm.subset hp', e⟩
    · have t1 : tally (below cs qss.flatten) = tally (below cs (askedPostings filters admits (meanings js))) :=
        tally_one (p1.filter _) fun p hp => c1 p (List.mem_of_mem_filter hp)
      have t2 : tally (below (cs.map f) qss'.flatten) = tally (below (cs.map f) qs) :=
        tally_one (p2.filter _) fun p hp => c2 p (List.mem_of_mem_filter hp)
      rw [t1, t2, u.tallies cs]
  rw [← h0, ← h1, ← h2] at q2'
  obtain ⟨ls, ls', e1, e2, e3, e4⟩ := renamed_reports hf hR un q2 q2'
  refine ⟨ls, ls', tally qss.flatten, ?_, ?_, e3, fun hm => e4 fun c d hc hd => hm c d ?_ ?_⟩
  · rw [q3, balanceMixes_one (c := c) _ [] (by simpa using c1), e1]
    rfl
  · rw [q3', balanceMixes_one (c := c) _ [] (by simpa using c2), e2]
    rfl
  · obtain ⟨p, hp, h⟩ := hc
    exact ⟨p, p1.subset hp, h⟩
  · obtain ⟨p, hp, h⟩ := hd
    exact ⟨p, p1.subset hp, h⟩

/-- An account's path with other names. -/
def renamedPath (f : Str → Str) (a : Str) : Str := joinPath ((split ':' a).map f)

/-- So does `accounts`, without arguments: the same accounts under the other names, each once. -/
theorem C131_accounts (hf : Function.Injective f) (g : Setting m o args bytes [] admits path) {pg pg' : Page}
    (r : Reading m.fs m.lib m.maxOpen path bytes js (.ok pg)) (g' : Setting m' o' args' bytes' [] admits' path')
    (r' : Reading m'.fs m'.lib m'.maxOpen path' bytes' js' (.ok pg')) {qs : List Posting}
    (hp : (askedPostings [] admits' (meanings js')).Perm qs) (hq : List.Forall₂ (Posting.Renamed f) qs (askedPostings [] admits (meanings js))) :
    ∃ L L' : List Str, m.run o .accounts args = ⟨(L.map (· ++ str "\n")).flatten, .exit 0⟩ ∧
      m'.run o' .accounts args' = ⟨(L'.map (· ++ str "\n")).flatten, .exit 0⟩ ∧ L.Pairwise StrLt ∧ L'.Pairwise StrLt ∧ L'.Perm (L.map (renamedPath f)) := by
  obtain ⟨d1, d2, _⟩ := C99_parsed r
  obtain ⟨text, q1, L, l1, l2, rfl⟩ := Heard.accounts (js := js) ⟨g, d1⟩ (d2 pg rfl)
  obtain ⟨d1', d2', _⟩ := C99_parsed r'
  obtain ⟨text', q1', L', l1', l2', rfl⟩ := Heard.accounts (js := js') ⟨g', d1'⟩ (d2' pg' rfl)
  have sel : ∀ t, selection [] t = t.postings := fun t => by
    unfold selection
    exact if_pos (Or.inl rfl)
  have mem : ∀ {admits : Date → Bool} {js : List (Meant × Str)} {a : Str},
      ((∃ t ∈ asked admits (meanings js), ∃ p ∈ t.postings, p.accountPath = a) ∧ (([] : List Filter) = [] ∨ ∃ f ∈ ([] : List Filter), f.regex a = true)) ↔
      ∃ p ∈ askedPostings [] admits (meanings js), p.accountPath = a := by
    intro admits js a
    unfold askedPostings
    constructor
    · rintro ⟨⟨t, ht, p, hp, e⟩, _⟩
      exact ⟨p, List.mem_flatMap.2 ⟨t, ht, by rw [sel]; exact hp⟩, e⟩
    · rintro ⟨p, hp, e⟩
      obtain ⟨t, ht, hp⟩ := List.mem_flatMap.1 hp
      rw [sel] at hp
      exact ⟨⟨t, ht, p, hp, e⟩, Or.inl rfl⟩
  have path_of : ∀ {p' p : Posting}, p'.Renamed f p → p'.accountPath = renamedPath f p.accountPath := by
    intro p' p h
    have := congrArg joinPath h.1
    unfold Posting.components at this
    rw [joinPath_split] at this
    exact this
  have nd : ∀ {l : List Str}, l.Pairwise StrLt → l.Nodup := fun h =>
    List.Pairwise.imp (R := StrLt) (S := fun a b => a ≠ b) (fun {a b} hab e => StrLt.irrefl b (by rw [e] at hab; exact hab)) h
  refine ⟨L, L', q1, q1', l1, l1', ?_⟩
  refine (List.perm_ext_iff_of_nodup (nd l1') (List.Nodup.map_on ?_ (nd l1))).2 fun a => ?_
  · intro a ha b hb e
    obtain ⟨p, hpa, rfl⟩ := mem.1 ((l2 a).1 ha)
    obtain ⟨q, hqa, rfl⟩ := mem.1 ((l2 b).1 hb)
    obtain ⟨p', _, hp'⟩ := forall₂_mem_left hq.flip hpa
    obtain ⟨q', _, hq'⟩ := forall₂_mem_left hq.flip hqa
    rw [← path_of hp', ← path_of hq'] at e
    have : p'.components = q'.components := by unfold Posting.components; rw [e]
    rw [hp'.1, hq'.1] at this
    have := congrArg joinPath (hf.list_map this)
    unfold Posting.components at this
    rwa [joinPath_split, joinPath_split] at this
  · refine (l2' a).trans (mem.trans ?_)
    rw [List.mem_map]
    constructor
    · rintro ⟨p', hp', rfl⟩
      obtain ⟨p, hpm, hr⟩ := forall₂_mem_left hq (hp.subset hp')
      exact ⟨p.accountPath, (l2 _).2 (mem.2 ⟨p, hpm, rfl⟩), (path_of hr).symm⟩
    · rintro ⟨b, hb, rfl⟩
      obtain ⟨p, hpm, rfl⟩ := mem.1 ((l2 b).1 hb)
      obtain ⟨p', hp', hr⟩ := forall₂_mem_left hq.flip hpm
      exact ⟨p', hp.symm.subset hp', path_of hr⟩

end

/-- Renaming `A` to `Zoo` changes the order of the lines; exchanging the names of two accounts exchanges them. -/
example :
    letI := asciiUnicode
    let a := machineWith (str "f") "2020-01-02 x\n  A:b  $1\n  B  $2\n  C\n"
    let b := machineWith (str "f") "2020-01-02 x\n  Zoo:b  $1\n  B  $2\n  C\n"
    (a.run { file := str "f" } .balance []).stdout =
        str "               $1.00  A\n               $1.00    b\n               $2.00  B\n              $-3.00  C\n--------------------\n                0.00\n" ∧
      (b.run { file := str "f" } .balance []).stdout =
        str "               $2.00  B\n              $-3.00  C\n               $1.00  Zoo\n               $1.00    b\n--------------------\n                0.00\n" := by
  decide +kernel

/-- An exchange of two names is such a renaming, and leaves the reserved names alone if it is not about them. -/
example : ∃ f : Str → Str, Function.Injective f ∧ (∀ c, Reserved c → f c = c) ∧ f (str "A") = str "Zoo" ∧ f (str "B") = str "B" ∧
    Posting.Renamed f { ({} : Posting) with accountPath := str "Zoo:b", amount := some ⟨str "$", 100⟩ }
      { ({} : Posting) with accountPath := str "A:b", amount := some ⟨str "$", 100⟩ } := by
  refine ⟨Equiv.swap (str "A") (str "Zoo"), Equiv.injective _, ?_, Equiv.swap_apply_left _ _, by decide +kernel, by decide +kernel, rfl⟩
  rintro c (rfl | rfl) <;> decide +kernel

end Gledger
