import Verif.Props.Sources
import Verif.Props.Whole
import Verif.Spec.Moved

/-! ### C110 A journal can be moved with the files it includes -/

namespace Gledger

set_option maxRecDepth 100000

variable {σ τ : Type}

/-- The directory of a path is what is put before the name in an include directive. -/
theorem C110_directory (path d : Str) : Directory path d ↔ splitDir path = d := by
  unfold splitDir
  constructor
  · rintro ⟨base, rfl, hb, hd⟩
    have h1 : ∀ c ∈ base.reverse, decide (c ≠ '/') = true := by
      intro c hc
      have : c ∈ base := by simpa using hc
      exact decide_eq_true fun e => hb (e ▸ this)
    rw [List.reverse_append, List.dropWhile_append_of_pos h1]
    rcases hd with rfl | ⟨e, rfl⟩
    · rfl
    · simp
  · intro h
    refine ⟨(path.reverse.takeWhile (· ≠ '/')).reverse, ?_, ?_, ?_⟩
    · rw [← h, ← List.reverse_append, List.takeWhile_append_dropWhile, List.reverse_reverse]
    · intro hc
      have := List.mem_takeWhile_imp (List.mem_reverse.1 hc)
      simp at this
    · cases hr : path.reverse.dropWhile (· ≠ '/') with
      | nil => rw [hr] at h; exact Or.inl h.symm
      | cons c r =>
        right
        have hc : c = '/' := by
          have := List.head_dropWhile_not (fun x : Char => decide (x ≠ '/')) (l := path.reverse) (by rw [hr]; simp)
          simp only [hr, List.head_cons] at this
          simpa using this
        refine ⟨r.reverse, ?_⟩
        rw [← h, hr, hc]
        simp

theorem splitDir_moved {d : Str} (hd : ∃ e, d = e ++ ['/']) (p : Str) : splitDir (d ++ p) = d ++ splitDir p := by
  obtain ⟨base, h1, h2, h3⟩ := (C110_directory p (splitDir p)).2 rfl
  refine (C110_directory _ _).1 ⟨base, by rw [List.append_assoc, ← h1], h2, Or.inr ?_⟩
  rcases h3 with h3 | ⟨e, h3⟩
  · rw [h3, List.append_nil]; exact hd
  · rw [h3]; exact ⟨d ++ e, by simp⟩

/-- Items after the move: an include directive names another file. -/
def movedItem (d : Str) : ItemType × Str → ItemType × Str
  | (.includeItem, p) => (.includeItem, d ++ p)
  | i => i

theorem movedItem_other {d : Str} {i : ItemType × Str} (h : i.1 ≠ .includeItem) : movedItem d i = i := by
  obtain ⟨i, c⟩ := i
  cases i <;> first | rfl | exact absurd rfl h

theorem movedItems_other {d : Str} {is : List (ItemType × Str)} (h : ∀ i ∈ is, i.1 ≠ .includeItem) : is.map (movedItem d) = is := by
  rw [List.map_congr_left fun i hi => movedItem_other (h i hi), List.map_id']

theorem lineItems_moved [Unicode] {d : Str} (hd : ∃ e, d = e ++ ['/']) (hint l : Str) :
    lineItems (d ++ hint) l = { items := (lineItems hint l).items.map (movedItem d), err := (lineItems hint l).err } := by
  have other : ∀ li : LineItems, (∀ i ∈ li.items, i.1 ≠ .includeItem) → li = { items := li.items.map (movedItem d), err := li.err } := by
    intro li h; rw [movedItems_other h]
  have payee : ∀ cs, ∀ i ∈ payeeItems cs, i.1 ≠ .includeItem := by
    intro cs i hi
    unfold payeeItems at hi
    simp only [List.mem_cons] at hi
    rcases hi with rfl | hi
    · simp
    · split at hi
      · cases hi
      · simp only [List.mem_singleton] at hi; subst hi; simp
  cases l with
  | nil => rfl
  | cons c cs =>
    simp only [lineItems]
    split
    · rfl
    · split
      · unfold includeItems
        split
        · rfl
        · simp only
          split
          · rfl
          · rw [splitDir_moved hd, List.append_assoc]; rfl
      · split
        · refine other _ ?_
          unfold periodItems
          split <;> simp
        · split
          · refine other _ ?_
            unfold headerItems stateItems
            intro i hi
            simp only [List.mem_cons] at hi
            rcases hi with rfl | hi
            · simp
            · split at hi
              · simp only [List.mem_cons] at hi
                rcases hi with rfl | hi
                · simp
                · exact payee _ i hi
              · simp only [List.mem_cons] at hi
                rcases hi with rfl | hi
                · simp
                · exact payee _ i hi
              · exact payee _ i hi
          · split
            · refine other _ ?_
              unfold postingItems amountItems
              split
              · simp
              · split
                · simp
                · split
                  · simp only
                    split <;> simp
                  · simp
            · rfl

/-! Failures that name no files. -/

def Failure.Fileless (f : Failure) : Prop := ∀ d, f.moved d = f

theorem parseDate_fileless (s : Str) {f : Failure} (h : parseDate s = .error f) : f.Fileless := by
  unfold parseDate at h
  intro d
  repeat' split at h
  all_goals first | (cases h; rfl) | cases h

theorem parseAmount_fileless (s : Str) {f : Failure} (h : parseAmount s = .error f) : f.Fileless := by
  unfold parseAmount at h
  intro d
  simp only at h
  repeat' split at h
  all_goals first | (cases h; rfl) | cases h

theorem buildNormal_fileless (b : Builder) (i : ItemType) (c : Str) {f : Failure} (h : (b.buildNormal i c).2 = some f) : f.Fileless := by
  intro d
  cases i with
  | dateItem =>
    simp only [Builder.buildNormal] at h
    cases hp : parseDate c with
    | error g => rw [hp] at h; cases h; exact parseDate_fileless _ hp d
    | ok x =>
      rw [hp] at h
      simp only at h
      split at h
      · cases h; rfl
      · cases h
  | amountItem =>
    simp only [Builder.buildNormal] at h
    split at h
    · cases h; rfl
    · split at h
      · cases h; rfl
      · cases hp : parseAmount c with
        | error g =>
          have := parseAmount_fileless _ hp d
          rw [hp] at h
          cases g with
          | err e => cases h; exact congrArg Failure.err (congrArg Err.parsingAmount (Failure.err.inj this))
          | panic p => cases h; rfl
          | fatal => cases h; rfl
        | ok x => rw [hp] at h; cases h
  | _ =>
    simp only [Builder.buildNormal] at h
    repeat' split at h
    all_goals first | (cases h; rfl) | cases h

theorem build_fileless (b : Builder) (i : ItemType) (c : Str) {f : Failure} (h : (b.build i c).2 = some f) : f.Fileless := by
  have key : ∀ r : Step Builder, (∀ g, r.2 = some g → g.Fileless) → (r.andThen fun b => (({ b with prev := some i } : Builder), none)).2 = some f → f.Fileless := by
    rintro ⟨b', _ | g⟩ hr hf
    · cases hf
    · cases hf; exact hr _ rfl
  refine key _ ?_ h
  intro g hg
  split at hg
  · exact buildNormal_fileless _ _ _ hg
  · unfold Builder.buildPeriodic at hg
    split at hg
    · cases hg; intro d; rfl
    · split at hg
      · cases hg
      · exact buildNormal_fileless _ _ _ hg

theorem ended_fileless (cur : Option Posting) (budget : Bool) (t : Transaction) {e : Err} (h : (endNormalTransaction cur budget t).2 = some e) (d : Str) :
    e.moved d = e := by
  have hp : ∀ (t : Transaction) (p : Posting) e, (t.addPosting p).2 = some e → e.moved d = e := by
    intro t p e h
    unfold Transaction.addPosting at h
    repeat' split at h
    all_goals first | (cases h; rfl) | cases h
  have hc : ∀ (t : Transaction) e, t.close.2 = some e → e.moved d = e := by
    intro t e h
    unfold Transaction.close at h
    simp only at h
    repeat' split at h
    all_goals first | (cases h; rfl) | cases h
  unfold endNormalTransaction at h
  cases cur with
  | none => exact hc _ _ h
  | some p =>
    simp only at h
    cases ha : t.addPosting p with
    | mk t' o =>
      rw [ha] at h
      cases o with
      | none => exact hc _ _ h
      | some e' => cases h; exact hp _ _ _ (by rw [ha])

/-! Parsing after the move. -/

/-- Handlers whose failures name no files. -/
def FilelessHandlers (H : Handlers σ) : Prop := ∀ u c f, (H.call u c).2 = some f → f.Fileless

/-- What is handed over after the move. -/
def Call.moved (d : Str) : Call → Call
  | .normal t p => .normal t (d ++ p)
  | .periodic t p => .periodic t (d ++ p)

/-- Handlers that treat what is handed over after the move as before, up to `U`. -/
def TreatsMoved (d : Str) (H : Handlers σ) (U : σ → σ → Prop) : Prop :=
  ∀ (u v : σ) (c : Call), U u v → U (H.call u c).1 (H.call v (c.moved d)).1 ∧ (H.call u c).2 = (H.call v (c.moved d)).2

theorem BlindThrough.treatsMoved {H : Handlers σ} {π : σ → τ} (h : BlindThrough H π) (d : Str) : TreatsMoved d H fun u v => π u = π v := by
  intro u v c hu
  exact h u v c (c.moved d) hu (by cases c <;> rfl)

/-- The parser before and after the move. -/
structure MovedState (d : Str) (U : σ → σ → Prop) (s t : PState σ) : Prop where
  builder : t.builder = s.builder
  files : t.files = s.files.map (d ++ ·)
  user : U s.user t.user

/-- Both end in the same way; a failure names the files at their new places. -/
abbrev MovedStep (d : Str) (U : σ → σ → Prop) (a b : Step (PState σ)) : Prop :=
  StepRel (MovedState d U) (MovedState d U) (fun f g => g = f.moved d) a b

theorem MovedStep.wrap {d : Str} {U : σ → σ → Prop} {a b : Step (PState σ)} {w w' : Err → Err} (h : MovedStep d U a b) (hw : ∀ e : Err, w' (e.moved d) = (w e).moved d) :
    MovedStep d U (a.wrap w) (b.wrap w') := by
  refine StepRel.wrap h ?_
  rintro (e | p | _) g rfl
  · exact congrArg Failure.err (hw e)
  · rfl
  · rfl

theorem callHandler_moved {d : Str} {U : σ → σ → Prop} {H : Handlers σ} (hH : TreatsMoved d H U) (hF : FilelessHandlers H) {s t : PState σ}
    (h : MovedState d U s t) : (∀ x, MovedStep d U (callHandler H.th x s) (callHandler H.th x t)) ∧ ∀ x, MovedStep d U (callHandler H.ph x s) (callHandler H.ph x t) := by
  obtain ⟨h1, h2, h3⟩ := h
  have files : t.files.getLast? = s.files.getLast?.map (d ++ ·) := by rw [h2, List.getLast?_map]
  have out : ∀ (r r' : Step σ), U r.1 r'.1 → r.2 = r'.2 → (∀ f, r.2 = some f → f.Fileless) →
      MovedStep d U (({ s with user := r.1 } : PState σ), r.2) (({ t with user := r'.1 } : PState σ), r'.2) := by
    rintro ⟨u, o⟩ ⟨v, _⟩ e1 rfl e3
    cases o with
    | none => exact StepRel.ok ⟨h1, h2, e1⟩
    | some f => exact StepRel.fail ⟨h1, h2, e1⟩ (e3 f rfl d).symm
  constructor
  · intro x
    unfold callHandler
    cases hh : H.th with
    | none => exact StepRel.ok ⟨h1, h2, h3⟩
    | some f =>
      simp only [files]
      cases s.files.getLast? with
      | none => exact StepRel.fail ⟨h1, h2, h3⟩ rfl
      | some p =>
        have k := hH s.user t.user (.normal x p) h3
        have k' := hF s.user (.normal x p)
        simp only [Call.moved, Handlers.call, hh] at k k'
        exact out _ _ k.1 k.2 k'
  · intro x
    unfold callHandler
    cases hh : H.ph with
    | none => exact StepRel.ok ⟨h1, h2, h3⟩
    | some f =>
      simp only [files]
      cases s.files.getLast? with
      | none => exact StepRel.fail ⟨h1, h2, h3⟩ rfl
      | some p =>
        have k := hH s.user t.user (.periodic x p) h3
        have k' := hF s.user (.periodic x p)
        simp only [Call.moved, Handlers.call, hh] at k k'
        exact out _ _ k.1 k.2 k'

theorem endTransaction_moved {d : Str} {U : σ → σ → Prop} {H : Handlers σ} (hH : TreatsMoved d H U) (hF : FilelessHandlers H) {s t : PState σ}
    (h : MovedState d U s t) : MovedStep d U (endTransaction H s) (endTransaction H t) := by
  obtain ⟨h1, h2, h3⟩ := h
  unfold endTransaction
  rw [h1]
  split
  · split
    · exact StepRel.ok ⟨h1, h2, h3⟩
    · simp only
      split
      · rename_i e he
        exact StepRel.fail ⟨rfl, h2, h3⟩ (congrArg Failure.err (ended_fileless _ _ _ he d)).symm
      · refine StepRel.andThen (R := MovedState d U) ((callHandler_moved hH hF ?_).1 _) ?_
        · exact ⟨rfl, h2, h3⟩
        · intro s t h
          exact StepRel.ok ⟨by simp only [h.builder], h.files, h.user⟩
  · split
    · exact StepRel.ok ⟨h1, h2, h3⟩
    · simp only
      split
      · rename_i e he
        exact StepRel.fail ⟨rfl, h2, h3⟩ (congrArg Failure.err (ended_fileless _ _ _ he d)).symm
      · refine StepRel.andThen (R := MovedState d U) ((callHandler_moved hH hF ?_).2 _) ?_
        · exact ⟨rfl, h2, h3⟩
        · intro s t h
          exact StepRel.ok ⟨by simp only [h.builder], h.files, h.user⟩

theorem build_moved {d : Str} {U : σ → σ → Prop} {s t : PState σ} (h : MovedState d U s t) (i : ItemType) (c : Str) :
    MovedStep d U (liftBuilder s (s.builder.build i c)) (liftBuilder t (t.builder.build i c)) := by
  obtain ⟨h1, h2, h3⟩ := h
  rw [h1]
  have := fun f => build_fileless s.builder i c (f := f)
  cases hb : s.builder.build i c with
  | mk b o =>
    rw [hb] at this
    cases o with
    | none => exact StepRel.ok ⟨rfl, h2, h3⟩
    | some f => exact StepRel.fail ⟨rfl, h2, h3⟩ (this f rfl d).symm

theorem begin_moved {d : Str} {U : σ → σ → Prop} {s t : PState σ} (h : MovedState d U s t) (k : TransactionType) (i : ItemType) (c : Str) :
    MovedStep d U (liftBuilder { s with builder := s.builder.begin k } ((s.builder.begin k).build i c))
      (liftBuilder { t with builder := t.builder.begin k } ((t.builder.begin k).build i c)) :=
  build_moved (s := { s with builder := s.builder.begin k }) (t := { t with builder := t.builder.begin k }) ⟨by simp only [h.builder], h.files, h.user⟩ i c

theorem runItems_moved {d : Str} {U : σ → σ → Prop} {cb cb' : ItemParser (PState σ)}
    (hcb : ∀ i s t, MovedState d U s t → MovedStep d U (cb i.1 i.2 s) (cb' (movedItem d i).1 (movedItem d i).2 t)) :
    ∀ (is : List (ItemType × Str)) (s t : PState σ), MovedState d U s t → MovedStep d U (runItems cb is s) (runItems cb' (is.map (movedItem d)) t) := by
  intro is
  induction is with
  | nil => intro s t h; exact StepRel.ok h
  | cons i is ih => intro s t h; exact (hcb i s t h).andThen ih

theorem feedLines_moved [Unicode] {d : Str} (hd : ∃ e, d = e ++ ['/']) {U : σ → σ → Prop} {cb cb' : ItemParser (PState σ)}
    (hcb : ∀ i s t, MovedState d U s t → MovedStep d U (cb i.1 i.2 s) (cb' (movedItem d i).1 (movedItem d i).2 t)) (hint : Str) :
    ∀ (ls : List RawLine) (n : Nat) (s t : PState σ), MovedState d U s t → MovedStep d U (feedLines cb hint n ls s) (feedLines cb' (d ++ hint) n ls t) := by
  intro ls
  induction ls with
  | nil => intro n s t h; exact StepRel.ok h
  | cons l ls ih =>
    intro n s t h
    cases l with
    | tooLong => exact StepRel.fail h rfl
    | line b =>
      rw [feedLines, feedLines]
      refine StepRel.andThen (R := MovedState d U) (MovedStep.wrap ?_ fun e => rfl) fun s t h => ih _ s t h
      rw [lineItems_moved hd]
      unfold runLine
      refine (runItems_moved hcb _ s t h).andThen fun s t h => ?_
      have hl : ∀ e, (lineItems hint (runes b)).err = some e → e.moved d = e := by
        intro e he
        have : ∀ li : LineItems, li = lineItems hint (runes b) → li.err = some e → e.moved d = e := by
          intro li hli he
          unfold lineItems includeItems periodItems headerItems postingItems at hli
          repeat' split at hli
          all_goals (subst hli; simp only at he)
          all_goals first | (cases he; rfl) | (repeat' split at he) 
          all_goals first | (cases he; rfl) | cases he
        exact this _ rfl he
      cases he : (lineItems hint (runes b)).err with
      | none => exact StepRel.ok h
      | some e => exact StepRel.fail h (congrArg Failure.err (hl e he)).symm

theorem parseItem_moved [Unicode] {d : Str} {fs fs' : FileSystem} (hm : MovedTo d fs fs') {U : σ → σ → Prop} {H : Handlers σ} (hH : TreatsMoved d H U)
    (hF : FilelessHandlers H) : ∀ (n : Nat) (i : ItemType × Str) (s t : PState σ), MovedState d U s t →
      MovedStep d U (parseItem fs H n i.1 i.2 s) (parseItem fs' H n (movedItem d i).1 (movedItem d i).2 t) := by
  intro n
  induction n with
  | zero =>
    rintro ⟨i, c⟩ s t h
    cases i with
    | includeItem => simp only [parseItem, movedItem]; exact StepRel.fail ⟨h.builder, by simp [h.files], h.user⟩ rfl
    | emptyLineItem => simp only [parseItem, movedItem]; exact endTransaction_moved hH hF h
    | eofItem => simp only [parseItem, movedItem]; exact endTransaction_moved hH hF h
    | dateItem =>
      simp only [parseItem, movedItem]
      refine (endTransaction_moved hH hF h).andThen fun s t h => MovedStep.wrap (begin_moved h _ _ _) fun e => rfl
    | periodItem =>
      simp only [parseItem, movedItem]
      refine (endTransaction_moved hH hF h).andThen fun s t h => MovedStep.wrap (begin_moved h _ _ _) fun e => rfl
    | _ => simp only [parseItem, movedItem]; exact build_moved h _ _
  | succ n ih =>
    rintro ⟨i, c⟩ s t h
    cases i with
    | includeItem =>
      rw [show movedItem d (.includeItem, c) = (.includeItem, d ++ c) from rfl]
      simp only
      rw [parseItem_include, parseItem_include, hm.2 c]
      have h' : MovedState d U { s with files := s.files ++ [c] } { t with files := t.files ++ [d ++ c] } := ⟨h.builder, by simp [h.files], h.user⟩
      cases fs c with
      | none => exact StepRel.fail h' rfl
      | some b =>
        simp only
        refine StepRel.andThen (R := MovedState d U) ?_ fun s t h => StepRel.ok ⟨h.builder, by simp [h.files, List.map_take], h.user⟩
        rw [parse_lexLoop, parse_lexLoop, lexLoop_eq, lexLoop_eq]
        refine MovedStep.wrap ((feedLines_moved hm.1 ih c _ _ _ _ h').andThen fun s t h => ?_) fun e => rfl
        exact ih (.eofItem, []) s t h
    | emptyLineItem => simp only [parseItem, movedItem]; exact endTransaction_moved hH hF h
    | eofItem => simp only [parseItem, movedItem]; exact endTransaction_moved hH hF h
    | dateItem =>
      simp only [parseItem, movedItem]
      refine (endTransaction_moved hH hF h).andThen fun s t h => MovedStep.wrap (begin_moved h _ _ _) fun e => rfl
    | periodItem =>
      simp only [parseItem, movedItem]
      refine (endTransaction_moved hH hF h).andThen fun s t h => MovedStep.wrap (begin_moved h _ _ _) fun e => rfl
    | _ => simp only [parseItem, movedItem]; exact build_moved h _ _

theorem parse_moved [Unicode] {d : Str} {fs fs' : FileSystem} (hm : MovedTo d fs fs') {U : σ → σ → Prop} {H : Handlers σ} (hH : TreatsMoved d H U)
    (hF : FilelessHandlers H) (n : Nat) (bytes : List UInt8) (path : Str) {u v : σ} (huv : U u v) :
    MovedStep d U (parse fs H n bytes path (newParser u)) (parse fs' H n bytes (d ++ path) (newParser v)) := by
  rw [parse_new_lexLoop, parse_new_lexLoop, lexLoop_eq, lexLoop_eq]
  have h0 : MovedState d U (rootStart u path) (rootStart v (d ++ path)) := ⟨rfl, rfl, huv⟩
  refine MovedStep.wrap ((feedLines_moved hm.1 (parseItem_moved hm hH hF n) path _ _ _ _ h0).andThen fun s t h => ?_) fun e => rfl
  exact parseItem_moved hm hH hF n (.eofItem, []) s t h

theorem runParse_moved [Unicode] {d : Str} {fs fs' : FileSystem} (hm : MovedTo d fs fs') {U : σ → σ → Prop} {H : Handlers σ} (hH : TreatsMoved d H U)
    (hF : FilelessHandlers H) (n : Nat) (bytes : List UInt8) (path : Str) {u v : σ} (huv : U u v) :
    (∃ x y, runParse fs n bytes path H u = .ok x ∧ runParse fs' n bytes (d ++ path) H v = .ok y ∧ U x y) ∨
    ∃ f, runParse fs n bytes path H u = .error f ∧ runParse fs' n bytes (d ++ path) H v = .error (f.moved d) := by
  have h := parse_moved hm hH hF n bytes path huv
  unfold runParse
  generalize parse fs H n bytes path (newParser u) = a at h
  generalize parse fs' H n bytes (d ++ path) (newParser v) = b at h
  obtain ⟨s, o⟩ := a
  obtain ⟨t, o'⟩ := b
  rcases h with ⟨h1, h2, h3⟩ | ⟨f, g, h1, h2, h3, h4⟩ <;> simp only at h1 h2 <;> subst h1 <;> subst h2
  · exact Or.inl ⟨_, _, rfl, rfl, h3.user⟩
  · subst h4; exact Or.inr ⟨f, rfl, rfl⟩

theorem recorder_follows (d : Str) : TreatsMoved d recorder fun u v => v.map Call.unfiled = u.map Call.unfiled := by
  intro u v c hu
  cases c <;> exact ⟨by simp [Handlers.call, recorder, Call.moved, Call.unfiled, hu], rfl⟩

theorem delivered_moved [Unicode] {d : Str} {fs fs' : FileSystem} (hm : MovedTo d fs fs') (n : Nat) (bytes : List UInt8) (path : Str) :
    (delivered fs n bytes path).map Call.unfiled = (delivered fs' n bytes (d ++ path)).map Call.unfiled := by
  have h := parse_moved hm (recorder_follows d) (by intro u c f h; cases c <;> cases h) n bytes path (u := []) (v := []) rfl
  unfold delivered
  rcases h with ⟨_, _, h⟩ | ⟨_, _, _, _, h, _⟩ <;> exact h.user.symm

/-! The handlers of the commands. -/

theorem smartDate_fileless (y : Nat) (s : Str) {e : Err} (h : parseSmartDate y s = .error e) (d : Str) : e.moved d = e := by
  have h1 : ∀ s e, parseYear s = .error e → e.moved d = e := by
    intro s e h
    unfold parseYear at h
    repeat' split at h
    all_goals first | (cases h; rfl) | cases h
  have h2 : ∀ sep, parseComponents y s sep = .error e → e.moved d = e := by
    intro sep h
    unfold parseComponents at h
    split at h
    · exact h1 _ _ h
    · split at h
      · unfold parseYearMonth at h; split at h <;> cases h; rfl
      · unfold parseMonthDay at h; split at h <;> cases h; rfl
    · unfold parseYearMonthDay at h; split at h <;> cases h; rfl
    · cases h; rfl
  unfold parseSmartDate at h
  split at h
  · exact h2 _ h
  · split at h
    · exact h2 _ h
    · split at h
      · exact h2 _ h
      · exact h1 _ _ h

theorem dateRange_fileless (e : Env) (t : Transaction) {err : Err} (h : e.withinDateRange t = .error err) (d : Str) : err.moved d = err := by
  have hb : ∀ flag, e.bound flag = .error err → err.moved d = err := by
    intro flag hb
    unfold Env.bound at hb
    split at hb
    · split at hb
      · cases hb
      · rename_i h'; cases hb; exact smartDate_fileless _ _ h' d
    · cases hb
  unfold Env.withinDateRange at h
  split at h
  · rename_i h'; cases h; exact hb _ h'
  · split at h
    · rename_i h'; cases h; exact hb _ h'
    · cases h

theorem filters_fileless (e : Env) (t : Transaction) {err : Err} (h : e.checkAgainstFilters t = .error err) (d : Str) : err.moved d = err := by
  unfold Env.checkAgainstFilters at h
  split at h
  · rename_i h'; cases h; exact dateRange_fileless e t h' d
  · cases h
  · repeat' split at h
    all_goals cases h

theorem dateChecked_fileless (e : Env) (g : σ → Transaction → Str → Step σ) (hg : ∀ u t p, (g u t p).2 = none) (u : σ) (t : Transaction) (p : Str) {f : Failure}
    (h : (e.dateChecked g u t p).2 = some f) : f.Fileless := by
  unfold Env.dateChecked at h
  intro d
  split at h
  · rename_i h'; cases h; exact congrArg Failure.err (dateRange_fileless e t h' d)
  · rw [hg] at h; cases h
  · cases h

theorem accounts_fileless (e : Env) : FilelessHandlers e.accountsHandlers := by
  intro u c f h
  cases c with
  | normal t p => exact dateChecked_fileless e _ (fun _ _ _ => rfl) u t p h
  | periodic t p => cases h

theorem payees_fileless (e : Env) : FilelessHandlers e.payeesHandlers := by
  intro u c f h
  cases c with
  | normal t p => exact dateChecked_fileless e _ (fun _ _ _ => rfl) u t p h
  | periodic t p => cases h

theorem print_fileless (e : Env) : FilelessHandlers e.printHandlers := by
  intro u c f h d
  cases c with
  | normal t p =>
    simp only [Handlers.call, Env.printHandlers, Env.printHandler] at h
    split at h
    · rename_i h'; cases h; exact congrArg Failure.err (filters_fileless e t h' d)
    · split at h <;> cases h
  | periodic t p => cases h

theorem balance_fileless (e : Env) : FilelessHandlers e.balanceHandlers := by
  intro u c f h d
  cases c with
  | normal t p =>
    simp only [Handlers.call, Env.balanceHandlers, Env.balanceHandler] at h
    split at h
    · rename_i h'; cases h; exact congrArg Failure.err (filters_fileless e t h' d)
    · split at h
      · cases h
      · split at h <;> cases h; rfl
  | periodic t p => cases h

theorem stats_fileless (e : Env) : FilelessHandlers e.statsHandlers := by
  intro u c f h d
  cases c with
  | normal t p =>
    simp only [Handlers.call, Env.statsHandlers, Env.statsHandler] at h
    split at h
    · rename_i h'; cases h; exact congrArg Failure.err (filters_fileless e t h' d)
    · split at h
      · cases h
      · split at h <;> cases h; rfl
  | periodic t p => cases h

theorem budget_fileless (e : Env) : FilelessHandlers e.budgetHandlers := by
  intro u c f h d
  cases c with
  | normal t p =>
    simp only [Handlers.call, Env.budgetHandlers, Env.budgetHandler] at h
    repeat' split at h
    all_goals first
      | (cases h; rfl)
      | (rename_i h'; cases h; exact congrArg Failure.err (filters_fileless e t h' d))
      | cases h
  | periodic t p =>
    simp only [Handlers.call, Env.budgetHandlers, budgetPeriodicHandler] at h
    repeat' split at h
    all_goals first
      | (cases h; rfl)
      | cases h

/-- The statistics after the move are those before, for the files at their new places. -/
def StatsMoved (d : Str) (u v : Stats) : Prop := v = { u with files := u.files.map (d ++ ·) }

theorem addKey_moved (d : Str) (l : List Str) (p : Str) : addKey (l.map (d ++ ·)) (d ++ p) = (addKey l p).map (d ++ ·) := by
  unfold addKey
  have : (d ++ p ∈ l.map (d ++ ·)) ↔ p ∈ l := by simp
  by_cases h : p ∈ l
  · rw [if_pos (by simpa using h), if_pos (by simpa using h)]
  · rw [if_neg (by simpa using h), if_neg (by simpa using h)]; simp

theorem addBuckets_moved (d : Str) (date : Date) : ∀ (ps : List Posting) (u : Stats),
    Stats.addBuckets date ps { u with files := u.files.map (d ++ ·) } =
      (Stats.addBuckets date ps u).map fun s => { s with files := s.files.map (d ++ ·) } := by
  intro ps
  induction ps with
  | nil => intro u; rfl
  | cons p ps ih =>
    intro u
    have hp : Stats.addBucket date { u with files := u.files.map (d ++ ·) } p = (Stats.addBucket date u p).map fun s => { s with files := s.files.map (d ++ ·) } := by
      unfold Stats.addBucket
      simp only
      split
      · cases p.amount <;> rfl
      · split
        · cases p.amount <;> rfl
        · rfl
    rw [Stats.addBuckets, Stats.addBuckets, hp]
    cases Stats.addBucket date u p with
    | none => rfl
    | some s => exact ih s

theorem stats_follows (d : Str) (e : Env) : TreatsMoved d e.statsHandlers (StatsMoved d) := by
  rintro u _ c rfl
  cases c with
  | periodic t p => exact ⟨rfl, rfl⟩
  | normal t p =>
    simp only [Handlers.call, Call.moved, Env.statsHandlers, Env.statsHandler]
    rcases e.checkAgainstFilters t with err | ⟨b, ps⟩
    · exact ⟨rfl, rfl⟩
    · simp only
      split
      · exact ⟨rfl, rfl⟩
      · rw [addKey_moved]
        have k := addBuckets_moved d t.date ps ⟨if u.first.isZero || t.date.before u.first then t.date else u.first,
          if u.last.isZero || t.date.after u.last then t.date else u.last, u.count + 1,
          ps.foldl (fun k (p : Posting) => addKey k p.accountPath) u.accounts, addKey u.payees t.payee, addKey u.files p, u.income, u.expense⟩
        simp only at k
        rw [k]
        generalize Stats.addBuckets t.date ps _ = r
        cases r with
        | none => exact ⟨rfl, rfl⟩
        | some s => exact ⟨rfl, rfl⟩

/-- The run before and after the move: they are equal, or both report the same, but for the names of the files, after the same output. -/
def Machine.MovedRun (m : Machine) (d : Str) (r r' : Run) : Prop :=
  r' = r ∨ ∃ w f, r = m.finish w (.error f) ∧ r' = m.finish w (.error (f.moved d))

theorem runOn_moved [Unicode] (m : Machine) {d : Str} {fs' : FileSystem} (hm : MovedTo d m.fs fs') (e : Env) (o : Options) (args : List Str)
    (bytes : List UInt8) (path : Str) {c : Command} (hc : c ≠ .statistics) :
    m.MovedRun d (m.runOn e o args bytes path c) ({ m with fs := fs' }.runOn e o args bytes (d ++ path) c) := by
  have hw := warnings_same m fs' m.maxOpen e bytes bytes path (d ++ path) (delivered_moved hm m.maxOpen bytes path) c
  cases c with
  | statistics => exact absurd rfl hc
  | version => exact Or.inl rfl
  | accounts =>
    simp only [Machine.runOn, accountsCmd]
    rcases runParse_moved hm ((blind_id (accounts_fileBlind e)).treatsMoved d) (accounts_fileless e) m.maxOpen bytes path (u := []) (v := []) rfl with ⟨x, y, h1, h2, h3⟩ | ⟨f, h1, h2⟩
    · have h3 : x = y := h3
      subst h3; rw [h1, h2]; exact Or.inl rfl
    · rw [h1, h2]; exact Or.inr ⟨_, f, rfl, rfl⟩
  | payees =>
    simp only [Machine.runOn, payeesCmd]
    rcases runParse_moved hm ((blind_id (payees_fileBlind e)).treatsMoved d) (payees_fileless e) m.maxOpen bytes path (u := []) (v := []) rfl with ⟨x, y, h1, h2, h3⟩ | ⟨f, h1, h2⟩
    · have h3 : x = y := h3
      subst h3; rw [h1, h2]; exact Or.inl rfl
    · rw [h1, h2]; exact Or.inr ⟨_, f, rfl, rfl⟩
  | print =>
    simp only [Machine.runOn, printCmd]
    rcases runParse_moved hm ((blind_id (print_fileBlind e)).treatsMoved d) (print_fileless e) m.maxOpen bytes path (u := []) (v := []) rfl with ⟨x, y, h1, h2, h3⟩ | ⟨f, h1, h2⟩
    · have h3 : x = y := h3
      subst h3; rw [h1, h2]; exact Or.inl rfl
    · rw [h1, h2]; exact Or.inr ⟨_, f, rfl, rfl⟩
  | budget =>
    simp only [Machine.warnings] at hw
    simp only [Machine.runOn, budgetCmd, hw]
    rcases runParse_moved hm ((blind_id (budget_fileBlind e)).treatsMoved d) (budget_fileless e) m.maxOpen bytes path (u := []) (v := []) rfl with ⟨x, y, h1, h2, h3⟩ | ⟨f, h1, h2⟩
    · have h3 : x = y := h3
      subst h3; rw [h1, h2]; exact Or.inl rfl
    · rw [h1, h2]; exact Or.inr ⟨_, f, rfl, rfl⟩
  | balance =>
    simp only [Machine.warnings] at hw
    simp only [Machine.runOn, balanceCmd, hw]
    rcases runParse_moved hm ((balance_blind e).treatsMoved d) (balance_fileless e) m.maxOpen bytes path (u := newJournal) (v := newJournal) rfl with ⟨x, y, h1, h2, h3⟩ | ⟨f, h1, h2⟩
    · rw [h1, h2]
      simp only [Except.map, unfiled_heap h3]
      exact Or.inl rfl
    · rw [h1, h2]; exact Or.inr ⟨_, f, rfl, rfl⟩

/-- After moving a journal with the files it includes, every command but the statistics does the same; errors name the files at their new places. -/
theorem C110_moved [Unicode] (m : Machine) {d : Str} {fs' : FileSystem} (hm : MovedTo d m.fs fs') (o : Options) {c : Command} (hc : c ≠ .statistics) (args : List Str)
    {path : Str} (hp : path ≠ []) :
    m.MovedRun d (m.run { o with file := path } c args) ({ m with fs := fs' }.run { o with file := d ++ path } c args) := by
  have hp' : d ++ path ≠ [] := by simp [hp]
  unfold Machine.run
  simp only
  rcases makeFilters m.engine args with (x | x | x) | filters
  · exact Or.inl rfl
  · exact Or.inl rfl
  · exact Or.inl rfl
  · simp only
    unfold Machine.runFiltered Machine.rootPath
    have k1 : (path.length = 0) = False := by simpa using hp
    have k2 : ((d ++ path).length = 0) = False := by simp [hp]
    simp only [k1, k2, if_false, hm.2]
    split
    · exact Or.inl rfl
    · cases hb : m.fs path with
      | none => exact Or.inr ⟨[], .err (.openFile path), rfl, rfl⟩
      | some b => exact runOn_moved m hm (m.env o filters) { o with file := path } args b path hc

/-- The statistics after the move: the same figures, the files being those before, at their new places; or the same error. -/
theorem C110_statistics [Unicode] (m : Machine) (ho : ∀ l, (m.stringOrder l).Perm l) {d : Str} {fs' : FileSystem} (hm : MovedTo d m.fs fs') (o : Options)
    (args : List Str) {path : Str} (hp : path ≠ []) :
    m.MovedRun d (m.run { o with file := path } .statistics args) ({ m with fs := fs' }.run { o with file := d ++ path } .statistics args) ∨
    ∃ (f : Figures) (files' : List Str), files'.Perm (f.files.map (d ++ ·)) ∧
      m.run { o with file := path } .statistics args = ⟨(f.lines m.humanize).flatMap (· ++ str "\n"), .exit 0⟩ ∧
      { m with fs := fs' }.run { o with file := d ++ path } .statistics args = ⟨({ f with files := files' }.lines m.humanize).flatMap (· ++ str "\n"), .exit 0⟩ := by
  unfold Machine.run
  simp only
  rcases makeFilters m.engine args with (x | x | x) | filters
  · exact Or.inl (Or.inl rfl)
  · exact Or.inl (Or.inl rfl)
  · exact Or.inl (Or.inl rfl)
  simp only
  unfold Machine.runFiltered Machine.rootPath
  have k1 : (path.length = 0) = False := by simpa using hp
  have k2 : ((d ++ path).length = 0) = False := by simp [hp]
  simp only [k1, k2, if_false, hm.2]
  rw [if_neg (by decide), if_neg (by decide)]
  cases hb : m.fs path with
  | none => exact Or.inl (Or.inr ⟨[], .err (.openFile path), rfl, rfl⟩)
  | some b =>
    simp only [Machine.runOn, statsCmd]
    rcases runParse_moved hm (stats_follows d (m.env o filters)) (stats_fileless (m.env o filters)) m.maxOpen b path (u := {}) (v := {}) rfl with
      ⟨v, v', h1, h2, h3⟩ | ⟨f, h1, h2⟩
    · have e1 : m.env { o with file := path } filters = m.env o filters := rfl
      have e2 : { m with fs := fs' }.env { o with file := d ++ path } filters = m.env o filters := rfl
      rw [e1, e2, h1, h2]
      unfold StatsMoved at h3
      subst h3
      simp only [Except.map, Machine.finish, List.nil_append]
      have ea : averageAge (({ v with files := v.files.map (d ++ ·) } : Stats).ages m.sortDates) = averageAge (v.ages m.sortDates) := by unfold Stats.ages; rfl
      have ed : ({ v with files := v.files.map (d ++ ·) } : Stats).days = v.days := by unfold Stats.days; rfl
      rw [ea]
      by_cases hc : v.count = 0
      · left; left
        unfold statsReport
        rw [if_pos hc, if_pos hc]
      · right
        obtain ⟨age, a1, -⟩ := C71_age_days (averageAge (v.ages m.sortDates))
        refine ⟨⟨m.stringOrder v.files, v.first, v.last, v.days, v.count, perDay v.count v.days, v.accounts.length, v.payees.length, age⟩,
          m.stringOrder (v.files.map (d ++ ·)), (ho _).trans ((ho _).symm.map _), ?_, ?_⟩
        · unfold statsReport
          rw [if_neg hc, a1, show v.files.length = (m.stringOrder v.files).length from (ho _).length_eq.symm]
          simp [Figures.lines, ago, List.flatMap_append, List.flatMap_map, List.append_assoc, str]
        · unfold statsReport
          rw [ed, if_neg hc, a1, show (v.files.map (d ++ ·)).length = (m.stringOrder (v.files.map (d ++ ·))).length from (ho _).length_eq.symm]
          simp [Figures.lines, ago, List.flatMap_append, List.flatMap_map, List.append_assoc, str]
    · have e1 : m.env { o with file := path } filters = m.env o filters := rfl
      have e2 : { m with fs := fs' }.env { o with file := d ++ path } filters = m.env o filters := rfl
      rw [e1, e2, h1, h2]
      exact Or.inl (Or.inr ⟨_, f, rfl, rfl⟩)

/-! Which file is included. -/

/-- The name in an include directive is put behind the directory of the file the directive is in, whatever the name is. -/
theorem C110_include [Unicode] {path d : Str} (hd : Directory path d) {l : List UInt8} {name : Str} (h : IncludeLine l name) :
    lineItems path (runes l) = { items := [(.includeItem, d ++ name)] } := by
  rw [includeLine_items h, (C110_directory path d).1 hd]

theorem parse_missing [Unicode] {fs : FileSystem} {path d : Str} (hd : Directory path d) {l : List UInt8} {name : Str} (h : IncludeLine l name)
    (hf : fs (d ++ name) = none) (H : Handlers σ) (n : Nat) (r : List UInt8) (u : σ) :
    (parse fs H n (l ++ 10 :: r) path (newParser u)).1.user = u ∧
      (parse fs H n (l ++ 10 :: r) path (newParser u)).2 = some (.err (.errorAt (.atLine path 1 (.openFile (d ++ name))))) := by
  have h1 : readLines (l ++ 10 :: r) = .line l :: readLines r := by
    rw [readLines_line l r h.1.1, terminatedLine_plain (by have := h.1.2.2; omega) h.1.2.1]
  have h2 : ∀ st : PState σ, parseItem fs H n .includeItem (d ++ name) st = ({ st with files := st.files ++ [d ++ name] }, some (.err (.openFile (d ++ name)))) := by
    intro st
    cases n with
    | zero => rfl
    | succ n => rw [parseItem_include]; simp only [hf]
  rw [parse_new_lexLoop, lexLoop_eq, h1]
  simp only [feedLines, C110_include hd h, runLine, runItems, h2]
  exact ⟨rfl, rfl⟩

/-- If there is no such file, every command says so, with the path made of the directory and the name. -/
theorem C110_missing [Unicode] (m : Machine) {path d : Str} (hd : Directory path d) {l : List UInt8} {name : Str} (h : IncludeLine l name)
    (hf : m.fs (d ++ name) = none) (r : List UInt8) (e : Env) (o : Options) (args : List Str) {c : Command} (hc : c ≠ .version) :
    m.runOn e o args (l ++ 10 :: r) path c = m.finish [] (.error (.err (.errorAt (.atLine path 1 (.openFile (d ++ name)))))) := by
  have k : ∀ {σ : Type} (H : Handlers σ) (u : σ),
      runParse m.fs m.maxOpen (l ++ 10 :: r) path H u = .error (.err (.errorAt (.atLine path 1 (.openFile (d ++ name))))) := by
    intro σ H u
    obtain ⟨-, h2⟩ := parse_missing hd h hf H m.maxOpen r u
    unfold runParse
    generalize parse m.fs H m.maxOpen (l ++ 10 :: r) path (newParser u) = x at h2
    obtain ⟨s, o⟩ := x
    simp only at h2
    subst h2
    rfl
  have k' : ∀ {σ : Type} (H : Handlers (σ × Str)) (u : σ), printedBy m.fs m.maxOpen (l ++ 10 :: r) path H u = [] := by
    intro σ H u
    unfold printedBy
    rw [(parse_missing hd h hf H m.maxOpen r (u, [])).1]
  cases c with
  | version => exact absurd rfl hc
  | accounts => simp only [Machine.runOn, accountsCmd, k]; rfl
  | payees => simp only [Machine.runOn, payeesCmd, k]
  | print => simp only [Machine.runOn, printCmd, k]; rfl
  | statistics => simp only [Machine.runOn, statsCmd, k]; rfl
  | budget => simp only [Machine.runOn, budgetCmd, k, k']; rfl
  | balance => simp only [Machine.runOn, balanceCmd, k, k']; rfl

/-- Files before and after a move. -/
def movedFiles (d : Str) (fs : FileSystem) : FileSystem := fun p => if d <+: p then fs (p.drop d.length) else none

theorem movedFiles_spec (e : Str) (fs : FileSystem) : MovedTo (e ++ ['/']) fs (movedFiles (e ++ ['/']) fs) := by
  refine ⟨⟨e, rfl⟩, fun p => ?_⟩
  unfold movedFiles
  rw [if_pos (List.prefix_append _ _), List.drop_left]

/-- A journal that includes a file in a directory, which includes another with an absolute name. -/
def movingFiles : FileSystem := fun p =>
  if p = str "top" then some (utf8 "include sub/a\n2020-01-02 y\n  A  1\n  B\n")
  else if p = str "sub/a" then some (utf8 "include /b\n")
  else if p = str "sub//b" then some (utf8 "2020-01-01 x\n  C  1\n  D\n")
  else if p = str "bad" then some (utf8 "include sub/bad\n")
  else if p = str "sub/bad" then some (utf8 "\ninclude nowhere\n")
  else none

example :
    letI := asciiUnicode
    let m := { wholeMachine with maxOpen := 3, fs := movingFiles }
    let d := str "/home/"
    let m' := { wholeMachine with maxOpen := 3, fs := movedFiles d movingFiles }
    Directory (str "sub/a") (str "sub/") ∧
    (∀ c ∈ [Command.accounts, .payees], m'.run { file := str "/home/top" } c [] = m.run { file := str "top" } c []) ∧
    (m.run { file := str "top" } .payees []).stdout = str "x\ny\n" ∧
    m.run { file := str "bad" } .payees [] = m.finish [] (.error (.err (.errorAt (.atLine (str "bad") 1 (.errorAt (.atLine (str "sub/bad") 2 (.openFile (str "sub/nowhere")))))))) ∧
    m'.run { file := str "/home/bad" } .payees [] =
      m.finish [] (.error (.err (.errorAt (.atLine (str "/home/bad") 1 (.errorAt (.atLine (str "/home/sub/bad") 2 (.openFile (str "/home/sub/nowhere")))))))) := by
  refine ⟨⟨str "a", rfl, by decide, Or.inr ⟨str "sub", rfl⟩⟩, ?_⟩
  decide +kernel

end Gledger
