import Verif.Props.Includes
import Verif.Spec.Includes

set_option maxRecDepth 100000

namespace Gledger

variable {σ : Type}

theorem meetAll_append [Unicode] (H : Handlers σ) (xs ys : List (Str × Event)) (s : PState σ) :
    meetAll H (xs ++ ys) s = (meetAll H xs s).andThen (meetAll H ys) := by
  induction xs generalizing s with
  | nil => rfl
  | cons x xs ih =>
    obtain ⟨l, e⟩ := x
    simp only [List.cons_append, meetAll, andThen_assoc]
    congr 1
    funext s
    exact ih s

/-- An include item always stands alone on its line. -/
theorem directive_some {li : LineItems} {p : Str} (h : directive li = some p) : li.items = [(.includeItem, p)] := by
  unfold directive at h
  split at h
  · rename_i q hq; cases h; exact hq
  · cases h

theorem directive_none [Unicode] {hint cs : Str} (h : directive (lineItems hint cs) = none) :
    ∀ i ∈ (lineItems hint cs).items, i.1 ≠ .includeItem := by
  by_cases hp : str "include " <+: cs
  · obtain ⟨t, rfl⟩ := hp
    have : lineItems hint (str "include " ++ t) = includeItems hint (str "include " ++ t) := by
      show lineItems hint ('i' :: (str "nclude " ++ t)) = _
      rw [lineItems, if_neg (by decide), if_pos rfl]
      rfl
    rw [this] at h ⊢
    unfold includeItems at h ⊢
    split
    · simp
    · rename_i hw
      rw [if_neg hw] at h
      simp only at h ⊢
      split
      · simp
      · rename_i hr
        rw [if_neg hr] at h
        cases h
  · exact (noInclude_items hp hint hint).2

theorem directive_err [Unicode] {hint cs p : Str} (h : directive (lineItems hint cs) = some p) : (lineItems hint cs).err = none := by
  have h1 := directive_some h
  by_cases hp : str "include " <+: cs
  · obtain ⟨t, rfl⟩ := hp
    have : lineItems hint (str "include " ++ t) = includeItems hint (str "include " ++ t) := by
      show lineItems hint ('i' :: (str "nclude " ++ t)) = _
      rw [lineItems, if_neg (by decide), if_pos rfl]
      rfl
    rw [this] at h1 ⊢
    unfold includeItems at h1 ⊢
    split
    · rename_i hw
      rw [if_pos hw] at h1
      cases h1
    · rename_i hw
      rw [if_neg hw] at h1
      simp only at h1 ⊢
      split
      · rename_i hr
        rw [if_pos hr] at h1
        cases h1
      · rfl
  · exact absurd rfl ((noInclude_items hp hint hint).2 (.includeItem, p) (by rw [h1]; simp))

/-- The parser reading files, and the reader of events: same builder, same user; the root file is at the bottom of the
parser's list of files. -/
def Alike (root : Str) (s t : PState σ) : Prop :=
  s.builder = t.builder ∧ s.user = t.user ∧ s.builder.Shape ∧ s.files.head? = some root

theorem lines_meet [Unicode] (fs : FileSystem) (H : Handlers σ) (root : Str) (n : Nat) (included : Str → List (Str × Event))
    (hinc : ∀ (file : Str) (s t : PState σ), Alike root s t →
      StepRel (fun s t => Alike root s t ∧ s.files.getLast? = some root) (fun s t => s.user = t.user) (fun f g => f.core = g.core)
        (parseItem fs H n .includeItem file s) (meetAll H (included file) t)) (path : Str) :
    ∀ (lines : List RawLine) (label : Str) (k : Nat) (s t : PState σ), Alike root s t → s.files.getLast? = some label →
    StepRel (Alike root) (fun s t => s.user = t.user) (fun f g => f.core = g.core)
      (lexLoop (parseItem fs H n) path k lines s) (meetAll H (unfold included root path label lines) t) := by
  -- the parser's own items
  have hitem : ∀ (fl : List Str) (label : Str), fl.getLast? = some label → ∀ (i : ItemType × Str), i.1 ≠ .includeItem → ∀ s t : PState σ,
      SimShape False (fun x y => x.2 = y.2 ∧ x.1 = fl ∧ y.1 = [label]) s t →
      StepRel (SimShape False (fun x y => x.2 = y.2 ∧ x.1 = fl ∧ y.1 = [label])) (fun s t => s.user = t.user) (fun f g => f.core = g.core)
        (parseItem fs H n i.1 i.2 s) (parseItem noFiles H 0 i.1 i.2 t) := by
    intro fl label hl i hi s t h
    have h1 := parseItem_rel FailRel.core (fun h => h.elim) (UserSim.lastFile H _ FailRel.core fl [label] (by simpa using hl)) fs n 0 i.1 (Or.inr hi) i.2 s t h
    have h2 : parseItem fs H 0 i.1 i.2 t = parseItem noFiles H 0 i.1 i.2 t := by
      obtain ⟨item, c⟩ := i
      cases item <;> rfl
    rw [← h2]
    exact h1
  intro lines
  induction lines with
  | nil =>
    intro label k s t h hl
    rw [lexLoop_eq]
    simp only [feedLines, andThen_ok, unfold, meetAll, meet, andThen_pure, parseItem_eof]
    obtain ⟨h1, h2, h3, h4⟩ := h
    have := endTransaction_rel (Any := False) FailRel.core (UserSim.lastFile H _ FailRel.core s.files [label] (by simpa using hl)) s { t with files := [label] }
      ⟨⟨h2, rfl, rfl⟩, Or.inl h1⟩ h3
    refine StepRel.mono this ?_ (fun _ _ h => h) (fun _ _ h => h)
    rintro s' t' ⟨⟨⟨a1, a2, a3⟩, a4⟩, a5, a6⟩
    refine ⟨?_, a1, Or.inl a5, by rw [show s'.files = s.files from a2]; exact h4⟩
    rcases a4 with a4 | ⟨a4, _⟩
    · exact a4
    · exact a4.elim
  | cons x xs ih =>
    intro label k s t h hl
    obtain ⟨h1, h2, h3, h4⟩ := h
    cases x with
    | tooLong =>
      rw [lexLoop_eq]
      simp only [feedLines, unfold, meetAll, meet, andThen_fail]
      exact StepRel.fail h2 rfl
    | line b =>
      rw [lexLoop_line]
      simp only [unfold]
      cases hd : directive (lineItems path (runes b)) with
      | some file =>
        simp only
        have hrun : runLine (parseItem fs H n) (lineItems path (runes b)) s = parseItem fs H n .includeItem file s := by
          unfold runLine
          rw [directive_some hd, directive_err hd]
          simp
        rw [hrun, meetAll_append]
        refine StepRel.andThen (R := fun s t => Alike root s t ∧ s.files.getLast? = some root)
          (StepRel.wrapLeft (hinc file s t ⟨h1, h2, h3, h4⟩) (by intro f g h; rw [← h]; cases f <;> rfl)) ?_
        rintro s' t' ⟨h5, h6⟩
        exact ih root _ s' t' h5 h6
      | none =>
        simp only [meetAll, meet]
        have hno := directive_none hd
        refine StepRel.andThen (R := SimShape False (fun x y => x.2 = y.2 ∧ x.1 = s.files ∧ y.1 = [label]))
          (StepRel.wrapLeft ?_ (by intro f g h; rw [← h]; cases f <;> rfl)) ?_
        · exact runLine_rel (R := SimShape False (fun x y => x.2 = y.2 ∧ x.1 = s.files ∧ y.1 = [label]))
            (G := fun s t => s.user = t.user) (F := fun f g => f.core = g.core) (fun s t h => h.1.1.1) (fun _ => rfl) _ (fun i hi => hitem s.files label hl i (hno i hi)) s { t with files := [label] } ⟨⟨⟨h2, rfl, rfl⟩, Or.inl h1⟩, h3⟩
        · rintro s' t' ⟨⟨⟨a1, a2, a3⟩, a4⟩, a5⟩
          have a2 : s'.files = s.files := a2
          refine ih label _ s' t' ⟨?_, a1, a5, by rw [a2]; exact h4⟩ (by rw [a2]; exact hl)
          rcases a4 with a4 | ⟨a4, _⟩
          · exact a4
          · exact a4.elim

theorem file_meets [Unicode] (fs : FileSystem) (H : Handlers σ) (root : Str) : ∀ (n : Nat) (file : Str) (s t : PState σ), Alike root s t →
    StepRel (fun s t => Alike root s t ∧ s.files.getLast? = some root) (fun s t => s.user = t.user) (fun f g => f.core = g.core)
      (parseItem fs H n .includeItem file s) (meetAll H (unfoldFile fs root n file) t) := by
  intro n
  induction n with
  | zero => intro file s t h; exact StepRel.fail h.2.1 rfl
  | succ n ih =>
    intro file s t h
    simp only [parseItem, unfoldFile]
    cases hf : fs file with
    | none => exact StepRel.fail h.2.1 rfl
    | some bytes =>
      obtain ⟨h1, h2, h3, h4⟩ := h
      simp only [lex]
      have := lines_meet fs H root n _ ih file (readLines bytes) file 1 { s with files := s.files ++ [file] } t
        ⟨h1, h2, h3, by
          show (s.files ++ [file]).head? = some root
          rw [List.head?_append, h4]; rfl⟩ (by simp)
      generalize lexLoop (parseItem fs H n) file 1 (readLines bytes) { s with files := s.files ++ [file] } = x at this
      generalize meetAll H (unfold (unfoldFile fs root n) root file file (readLines bytes)) t = y at this
      obtain ⟨x1, x2⟩ := x
      obtain ⟨y1, y2⟩ := y
      rcases this with ⟨a1, a2, a3, a4, a5, a6⟩ | ⟨f, g, a1, a2, a3, a4⟩ <;> simp only at a1 a2 a3 <;> subst a1 <;> subst a2
      · refine StepRel.ok ⟨⟨a3, a4, a5, ?_⟩, ?_⟩
        · cases hx : x1.files with
          | nil => simp only at a6; rw [hx] at a6; cases a6
          | cons z zs => simp only at a6; rw [hx] at a6; simpa using a6
        · cases hx : x1.files with
          | nil => simp only at a6; rw [hx] at a6; cases a6
          | cons z zs => simp only at a6; rw [hx] at a6; simpa using a6
      · exact StepRel.fail a3 (by rw [core_errorAt]; exact a4)

/-- The exact attribution, for every tree of files: what the handlers are called with, under which file names, and whether
(and why) parsing fails, is what reading the unfolded tree gives, in which a transaction is filed under the label of the
line (or end of file) that ends it: the file containing that line if no include directive stands above it in its file,
otherwise the root file. -/
theorem C18_labels_partial [Unicode] (fs : FileSystem) (H : Handlers σ) (maxOpen : Nat) (path : Str) (u : σ) (bytes : List UInt8) :
    let reading := meetAll (logged H) (unfoldRoot fs maxOpen path bytes) (newParser (u, []))
    callsOf fs H maxOpen bytes path u = reading.1.user.2 ∧ endStateOf fs H maxOpen bytes path u = reading.1.user.1 ∧
      (failureOf fs H maxOpen bytes path u).map Failure.core = reading.2.map Failure.core := by
  intro reading
  have key := lines_meet fs (logged H) path maxOpen _ (file_meets fs (logged H) path maxOpen) path (readLines bytes) path 1
    (rootStart (u, []) path) (newParser (u, [])) ⟨rfl, rfl, rootStart_shape _ _, rfl⟩ rfl
  unfold callsOf endStateOf failureOf
  rw [parse_new_lexLoop]
  rcases key with ⟨h1, h2, h3⟩ | ⟨f, g, h1, h2, h3, h4⟩
  · refine ⟨congrArg Prod.snd h3.2.1, congrArg Prod.fst h3.2.1, ?_⟩
    rw [show reading.2 = none from h2, show (Step.wrap _ _).2 = none from (wrap_none _ _).2 h1]
  · refine ⟨congrArg Prod.snd h3, congrArg Prod.fst h3, ?_⟩
    rw [show reading.2 = some g from h2]
    simp only [Step.wrap, h1, Option.map_some, core_errorAt, h4]

/-- The tree of `C18_attribution_false`: the transaction `y` of the file `a` follows an include directive, so it is filed
under the root file `r`; the transaction `x`, which precedes the directive and is ended by the first line of the included
file `b`, is filed under `b`. -/
example :
    letI := asciiUnicode
    let fs : FileSystem := fun p =>
      if p = str "a" then some (utf8 "2020-01-01 x\n  A  1\n  B\ninclude b\n2020-01-01 y\n  A  1\n  B\n")
      else if p = str "b" then some (utf8 "\n") else none
    (callsOf fs recorder 5 (utf8 "include a\n") (str "r") []).map (fun c => (c.transaction.payee, c.file)) =
      [(str "x", str "b"), (str "y", str "r")] ∧
    (unfoldRoot fs 5 (str "r") (utf8 "include a\n")).map Prod.fst =
      [str "a", str "a", str "a", str "b", str "b", str "r", str "r", str "r", str "r", str "r"] := by decide +kernel

/-! ### C16 for trees of files -/

theorem directive_none_hint [Unicode] {hint cs : Str} (h : directive (lineItems hint cs) = none) (hint' : Str) :
    lineItems hint' cs = lineItems hint cs := by
  by_cases hp : str "include " <+: cs
  · obtain ⟨t, rfl⟩ := hp
    have hi : ∀ hint, lineItems hint (str "include " ++ t) = includeItems hint (str "include " ++ t) := by
      intro hint
      show lineItems hint ('i' :: (str "nclude " ++ t)) = _
      rw [lineItems, if_neg (by decide), if_pos rfl]
      rfl
    rw [hi, hi]
    rw [hi] at h
    unfold includeItems at h ⊢
    by_cases hw : (str "include " ++ t).takeWhile (· ≠ ' ') ≠ str "include"
    · rw [if_pos hw, if_pos hw]
    · rw [if_neg hw, if_neg hw]
      rw [if_neg hw] at h
      simp only at h ⊢
      by_cases hr : (str "include " ++ t).dropWhile (· ≠ ' ') = [] ∨ (field (afterSpace ((str "include " ++ t).dropWhile (· ≠ ' ')))).1 = []
      · rw [if_pos hr, if_pos hr]
      · rw [if_neg hr] at h
        cases h
  · exact (noInclude_items hp hint' hint).1

/-- Reading events, and reading the lines of one file: same builder, same calls up to file names. -/
def AlikeUnfiled (s t : PState (σ × List Call)) : Prop :=
  s.builder = t.builder ∧ s.builder.Shape ∧ s.user.1 = t.user.1 ∧ s.user.2.map Call.unfiled = t.user.2.map Call.unfiled ∧ t.files ≠ []

theorem AlikeUnfiled.sim {s t : PState (σ × List Call)} (h : AlikeUnfiled s t) (label : Str) :
    SimShape False SameCalls { s with files := [label] } t :=
  ⟨⟨⟨h.2.2.1, h.2.2.2.1, by simp, h.2.2.2.2⟩, Or.inl h.1⟩, h.2.1⟩

theorem AlikeUnfiled.of_sim {s t : PState (σ × List Call)} (h : SimShape False SameCalls s t) : AlikeUnfiled s t := by
  obtain ⟨⟨⟨h1, h2, h3, h4⟩, h5⟩, h6⟩ := h
  refine ⟨?_, h6, h1, h2, h4⟩
  rcases h5 with h5 | ⟨h5, _⟩
  · exact h5
  · exact h5.elim

theorem lines_inlined [Unicode] (H : Handlers σ) (hH : FileBlind H) (fs : FileSystem) (m : Nat) (hint : Str)
    (root : Str) (events : Str → List (Str × Event)) (included : Str → Option (List RawLine))
    (hinc : ∀ (file : Str) (ls : List RawLine), included file = some ls → ∀ (k : Nat) (s t : PState (σ × List Call)), AlikeUnfiled s t →
      StepRel AlikeUnfiled (fun s t => s.user.1 = t.user.1 ∧ s.user.2.map Call.unfiled = t.user.2.map Call.unfiled) (fun f g => f.core = g.core)
        (meetAll (logged H) (events file) s)
        ((feedLines (parseItem fs (logged H) m) hint k ls t).andThen (endTransaction (logged H)))) (path : Str) :
    ∀ (lines ls : List RawLine), inlineLines included path lines = some ls → ∀ (label : Str) (k : Nat) (s t : PState (σ × List Call)),
      AlikeUnfiled s t →
      StepRel AlikeUnfiled (fun s t => s.user.1 = t.user.1 ∧ s.user.2.map Call.unfiled = t.user.2.map Call.unfiled) (fun f g => f.core = g.core)
        (meetAll (logged H) (unfold events root path label lines) s)
        ((feedLines (parseItem fs (logged H) m) hint k ls t).andThen (endTransaction (logged H))) := by
  have hu : UserSim True (logged H) (logged H) _ SameCalls _ := UserSim.blind H hH (fun f g => f.core = g.core) FailRel.core
  intro lines
  induction lines with
  | nil =>
    intro ls hls label k s t h
    cases hls
    simp only [unfold, meetAll, meet, andThen_pure, feedLines, andThen_ok]
    have := endTransaction_rel FailRel.core hu _ _ (h.sim label).1 (h.sim label).2
    exact StepRel.mono this (fun s t h => AlikeUnfiled.of_sim ⟨h.1, Or.inl h.2.1⟩) (fun _ _ h => h) (fun _ _ h => h)
  | cons x xs ih =>
    intro ls hls label k s t h
    cases x with
    | tooLong =>
      simp only [inlineLines, Option.map_eq_some_iff] at hls
      obtain ⟨rs, _, rfl⟩ := hls
      simp only [unfold, meetAll, meet, andThen_fail, feedLines]
      exact StepRel.fail ⟨h.2.2.1, h.2.2.2.1⟩ rfl
    | line b =>
      simp only [inlineLines] at hls
      simp only [unfold]
      cases hd : directive (lineItems path (runes b)) with
      | some file =>
        rw [hd] at hls
        simp only [Option.bind_eq_bind, Option.bind_eq_some_iff, Option.pure_def, Option.some.injEq] at hls
        obtain ⟨as, h1, rs, h2, rfl⟩ := hls
        simp only
        rw [meetAll_append, feedLines_append]
        have hr : ∀ k w, feedLines (parseItem fs (logged H) m) hint k (.line [] :: rs) w =
            ((endTransaction (logged H) w).wrap (.atLine hint k)).andThen (feedLines (parseItem fs (logged H) m) hint (k + 1) rs) := by
          intro k w
          rw [feedLines]
          simp only [runes_nil, lineItems_nil, runLine_ok, runItems_cons, andThen_runItems_nil, parseItem_empty]
        rw [andThen_assoc]
        have e : ((feedLines (parseItem fs (logged H) m) hint k as t).andThen fun w =>
            (feedLines (parseItem fs (logged H) m) hint (k + as.length) (.line [] :: rs) w).andThen (endTransaction (logged H))) =
            ((feedLines (parseItem fs (logged H) m) hint k as t).andThen fun w => (endTransaction (logged H) w).wrap (.atLine hint (k + as.length))).andThen
              (fun w => (feedLines (parseItem fs (logged H) m) hint (k + as.length + 1) rs w).andThen (endTransaction (logged H))) := by
          rw [andThen_assoc]
          congr 1
          funext w
          rw [hr, andThen_assoc]
        rw [e]
        refine StepRel.andThen (R := AlikeUnfiled) ?_ fun s' t' h' => ih rs h2 root _ s' t' h'
        have hb := hinc file as h1 k s t h
        generalize feedLines (parseItem fs (logged H) m) hint k as t = y at hb
        obtain ⟨y1, _ | e⟩ := y
        · simp only [andThen_ok] at hb ⊢
          generalize endTransaction (logged H) y1 = z at hb
          generalize meetAll (logged H) (events file) s = x at hb
          obtain ⟨x1, x2⟩ := x
          obtain ⟨z1, z2⟩ := z
          rcases hb with ⟨a1, a2, a3⟩ | ⟨f, g, a1, a2, a3, a4⟩ <;> simp only at a1 a2 a3 <;> subst a1 <;> subst a2
          · exact StepRel.ok a3
          · exact StepRel.fail a3 (by rw [core_atLine]; exact a4)
        · exact hb
      | none =>
        rw [hd] at hls
        simp only [Option.map_eq_some_iff] at hls
        obtain ⟨rs, h2, rfl⟩ := hls
        simp only [meetAll, meet, feedLines]
        rw [directive_none_hint hd hint, andThen_assoc]
        have hno := directive_none hd
        refine StepRel.andThen (R := AlikeUnfiled) ?_ fun s' t' h' => ih rs h2 label _ s' t' h'
        have key := runLine_rel (R := SimShape False SameCalls) (F := fun f g => f.core = g.core) (fun s t h => hu.weak _ _ h.1.1) (fun _ => rfl)
          (lineItems path (runes b)) (fun i hi s t hst => parseItem_rel FailRel.core (fun h => h.elim) hu fs 0 m i.1 (Or.inr (hno i hi)) i.2 s t hst)
          _ t (h.sim label)
        have hcb : ∀ s : PState (σ × List Call), runLine (parseItem fs (logged H) 0) (lineItems path (runes b)) s =
            runLine (parseItem noFiles (logged H) 0) (lineItems path (runes b)) s := by
          intro s
          have : parseItem fs (logged H) 0 = parseItem noFiles (logged H) 0 := by
            funext i c s
            cases i <;> rfl
          rw [this]
        rw [hcb] at key
        generalize runLine (parseItem noFiles (logged H) 0) (lineItems path (runes b)) { s with files := [label] } = x at key
        generalize runLine (parseItem fs (logged H) m) (lineItems path (runes b)) t = y at key
        obtain ⟨x1, x2⟩ := x
        obtain ⟨y1, y2⟩ := y
        rcases key with ⟨a1, a2, a3⟩ | ⟨f, g, a1, a2, a3, a4⟩ <;> simp only at a1 a2 a3 <;> subst a1 <;> subst a2
        · exact StepRel.ok (AlikeUnfiled.of_sim a3)
        · exact StepRel.fail a3 (by rw [core_atLine]; exact a4)

theorem file_inlined [Unicode] (H : Handlers σ) (hH : FileBlind H) (fs fs' : FileSystem) (m : Nat) (hint root : Str) : ∀ (n : Nat) (file : Str)
    (ls : List RawLine), inlineFile fs n file = some ls → ∀ (k : Nat) (s t : PState (σ × List Call)), AlikeUnfiled s t →
      StepRel AlikeUnfiled (fun s t => s.user.1 = t.user.1 ∧ s.user.2.map Call.unfiled = t.user.2.map Call.unfiled) (fun f g => f.core = g.core)
        (meetAll (logged H) (unfoldFile fs root n file) s)
        ((feedLines (parseItem fs' (logged H) m) hint k ls t).andThen (endTransaction (logged H))) := by
  intro n
  induction n with
  | zero => intro file ls h; cases h
  | succ n ih =>
    intro file ls h k s t hst
    simp only [inlineFile, Option.bind_eq_some_iff] at h
    obtain ⟨bytes, hf, hb⟩ := h
    simp only [unfoldFile, hf]
    exact lines_inlined H hH fs' m hint root _ _ ih file (readLines bytes) ls hb file k s t hst

/-- Include is inlining, for any tree of files: if no file is missing and not too many are open at once, then reading the
tree is, file names apart, reading one file in which every directive has been replaced by the lines of the file it names,
with the directives in it replaced likewise, and a blank line. -/
theorem C16_tree_inlining [Unicode] (fs fs' : FileSystem) (H : Handlers σ) (hH : FileBlind H) (maxOpen maxOpen' : Nat) (path path' : Str) (u : σ)
    (bytes flat : List UInt8) (hflat : inlineLines (inlineFile fs maxOpen) path (readLines bytes) = some (readLines flat)) :
    (callsOf fs H maxOpen bytes path u).map Call.unfiled = (callsOf fs' H maxOpen' flat path' u).map Call.unfiled ∧
    endStateOf fs H maxOpen bytes path u = endStateOf fs' H maxOpen' flat path' u ∧
    (failureOf fs H maxOpen bytes path u).map Failure.core = (failureOf fs' H maxOpen' flat path' u).map Failure.core := by
  obtain ⟨e1, e2, e3⟩ := C18_labels_partial fs H maxOpen path u bytes
  rw [e1, e2, e3]
  have key := lines_inlined H hH fs' maxOpen' path' path _ _ (file_inlined H hH fs fs' maxOpen' path' path maxOpen) path (readLines bytes)
    (readLines flat) hflat path 1 (newParser (u, [])) (rootStart (u, []) path') ⟨rfl, Or.inl ⟨rfl, rfl, rfl⟩, rfl, rfl, by simp [rootStart]⟩
  unfold callsOf endStateOf failureOf
  rw [parse_new]
  have e : (fun s : PState (σ × List Call) => endTransaction (logged H) s) = parseItem fs' (logged H) maxOpen' .eofItem [] := by
    funext s; rw [parseItem_eof]
  rw [← e]
  rcases key with ⟨h1, h2, h3⟩ | ⟨f, g, h1, h2, h3, h4⟩
  · refine ⟨h3.2.2.2.1, h3.2.2.1, ?_⟩
    rw [show (meetAll (logged H) (unfoldRoot fs maxOpen path bytes) (newParser (u, []))).2 = none from h1]
    simp only [Step.wrap]
    rw [h2]
    rfl
  · refine ⟨h3.2, h3.1, ?_⟩
    rw [show (meetAll (logged H) (unfoldRoot fs maxOpen path bytes) (newParser (u, []))).2 = some f from h1]
    simp only [Step.wrap]
    rw [h2]
    simp only [Option.map_some, core_errorAt, h4]

/-- A tree of three files and the file it amounts to. -/
example :
    letI := asciiUnicode
    let fs : FileSystem := fun p =>
      if p = str "d/a" then some (utf8 "2020-01-01 x\n  A  1\n  B\ninclude e/b\n2020-01-03 y\n  A  1\n  B\n")
      else if p = str "d/e/b" then some (utf8 "2020-01-02 z\n  A  1\n  B\n") else none
    inlineLines (inlineFile fs 2) (str "d/r") (readLines (utf8 "; c\ninclude a\n2020-01-04 w\n  A  1\n  B\n")) =
      some (readLines (utf8 "; c\n2020-01-01 x\n  A  1\n  B\n2020-01-02 z\n  A  1\n  B\n\n2020-01-03 y\n  A  1\n  B\n\n2020-01-04 w\n  A  1\n  B\n")) ∧
    (callsOf fs recorder 2 (utf8 "; c\ninclude a\n2020-01-04 w\n  A  1\n  B\n") (str "d/r") []).length = 4 := by decide +kernel

end Gledger
