import Verif.Lemmas.Parse
import Verif.Spec.Replay

/-! Parsing with a command's handlers is parsing with a recorder and replaying the record. -/

namespace Gledger

variable {σ : Type}

theorem replay_append (H : Handlers σ) (a b : List Call) (u : σ) : H.replay (a ++ b) u = (H.replay a u).andThen (H.replay b) := by
  induction a generalizing u with
  | nil => rfl
  | cons c cs ih =>
    rw [List.cons_append, Handlers.replay, Handlers.replay, andThen_assoc]
    congr 1
    funext v
    exact ih v

theorem replay_snoc (H : Handlers σ) (a : List Call) (c : Call) (u : σ) : H.replay (a ++ [c]) u = (H.replay a u).andThen fun v => H.call v c := by
  rw [replay_append]
  congr 1
  funext v
  rw [Handlers.replay]
  obtain ⟨s, _ | e⟩ := H.call v c <;> rfl

/-- A failed replay stays failed. -/
theorem replay_stuck (H : Handlers σ) {pre l : List Call} (hp : pre <+: l) {u v : σ} {e : Failure} (h : H.replay pre u = (v, some e)) :
    H.replay l u = (v, some e) := by
  obtain ⟨t, rfl⟩ := hp
  rw [replay_append, h]
  rfl

/-- Lockstep of the handlers and the recorder: both go on, both fail alike, or the handlers have failed. -/
def Lock (H : Handlers σ) (u : σ) (R : PState σ → PState (List Call) → Prop) (a : Step (PState σ)) (b : Step (PState (List Call))) : Prop :=
  (a.2 = none ∧ b.2 = none ∧ R a.1 b.1) ∨
  (∃ f, a.2 = some f ∧ b.2 = some f ∧ H.replay b.1.user u = (a.1.user, none)) ∨
  ∃ f e, a.2 = some f ∧ f.core = e.core ∧ H.replay b.1.user u = (a.1.user, some e)

variable {H : Handlers σ} {u : σ} {R R' : PState σ → PState (List Call) → Prop}

/-- The record only grows. -/
def Grow (t : PState (List Call)) (b : Step (PState (List Call))) : Prop := t.user <+: b.1.user

theorem Lock.andThen {a : Step (PState σ)} {b : Step (PState (List Call))} {f : PState σ → Step (PState σ)}
    {g : PState (List Call) → Step (PState (List Call))} (h : Lock H u R a b) (hf : ∀ s t, R s t → Lock H u R' (f s) (g t))
    (hg : ∀ t, Grow t (g t)) : Lock H u R' (a.andThen f) (b.andThen g) := by
  obtain ⟨s, x⟩ := a
  obtain ⟨t, y⟩ := b
  rcases h with ⟨h1, h2, h3⟩ | ⟨e, h1, h2, h3⟩ | ⟨e, e', h1, h2, h3⟩
  · simp only at h1 h2; subst h1 h2; exact hf s t h3
  · simp only at h1 h2; subst h1 h2; exact Or.inr (Or.inl ⟨e, rfl, rfl, h3⟩)
  · simp only at h1; subst h1
    refine Or.inr (Or.inr ⟨e, e', rfl, h2, ?_⟩)
    cases y with
    | none => exact replay_stuck H (hg t) h3
    | some y => exact h3

theorem Lock.wrap {a : Step (PState σ)} {b : Step (PState (List Call))} {w : Err → Err} (h : Lock H u R a b)
    (hw : ∀ e : Err, (w e).core = e.core) : Lock H u R (a.wrap w) (b.wrap w) := by
  obtain ⟨s, x⟩ := a
  obtain ⟨t, y⟩ := b
  rcases h with ⟨h1, h2, h3⟩ | ⟨e, h1, h2, h3⟩ | ⟨e, e', h1, h2, h3⟩
  · simp only at h1 h2; subst h1 h2; exact Or.inl ⟨rfl, rfl, h3⟩
  · simp only at h1 h2; subst h1 h2; exact Or.inr (Or.inl ⟨_, rfl, rfl, h3⟩)
  · simp only at h1; subst h1
    refine Or.inr (Or.inr ⟨_, e', rfl, ?_, h3⟩)
    rw [← h2]
    cases e <;> simp [Failure.wrap, Failure.core, hw]

theorem Lock.mono {a : Step (PState σ)} {b : Step (PState (List Call))} (h : Lock H u R a b) (hR : ∀ s t, R s t → R' s t) : Lock H u R' a b := by
  rcases h with ⟨h1, h2, h3⟩ | h | h
  · exact Or.inl ⟨h1, h2, hR _ _ h3⟩
  · exact Or.inr (Or.inl h)
  · exact Or.inr (Or.inr h)

/-- The handlers' parser and the recorder's, with the handlers not failed so far. -/
def InStep (H : Handlers σ) (u : σ) (s : PState σ) (t : PState (List Call)) : Prop :=
  s.builder = t.builder ∧ s.files = t.files ∧ t.files ≠ [] ∧ H.replay t.user u = (s.user, none)

theorem recorder_inv (l : List Call) : ParserInv recorder (fun st => l <+: st.user) (fun st => l <+: st.user) (fun st => l <+: st.user) where
  weak := fun _ h => h
  idle := fun _ h => h
  files := fun _ _ h => h
  begun := fun _ _ h => h
  built := fun _ _ _ h => ⟨h, fun _ => h⟩
  ended := by
    intro st h
    have key : l <+: (endTransaction recorder st).1.user := by
      unfold endTransaction
      cases st.builder.ttype with
      | normal =>
        cases st.builder.transaction with
        | none => exact h
        | some t =>
          simp only
          split
          · exact h
          · unfold callHandler recorder
            simp only
            cases st.files.getLast? with
            | none => exact h
            | some f => exact h.trans (List.prefix_append _ _)
      | periodic =>
        cases st.builder.periodic with
        | none => exact h
        | some t =>
          simp only
          split
          · exact h
          · unfold callHandler recorder
            simp only
            cases st.files.getLast? with
            | none => exact h
            | some f => exact h.trans (List.prefix_append _ _)
    exact ⟨key, fun _ => key⟩

theorem parseItem_grow [Unicode] (fs : FileSystem) (n : Nat) (item : ItemType) (content : Str) (t : PState (List Call)) :
    Grow t (parseItem fs recorder n item content t) :=
  (parseItem_keeps (recorder_inv t.user) fs n item content t List.prefix_rfl).1

theorem callHandler_lock_th (t : Transaction) {s : PState σ} {r : PState (List Call)} (h : InStep H u s r) :
    Lock H u (InStep H u) (callHandler H.th t s) (callHandler recorder.th t r) := by
  obtain ⟨h1, h2, h3, h4⟩ := h
  unfold callHandler
  have hl := List.getLast?_eq_getLast_of_ne_nil h3
  rw [h2, hl]
  simp only [recorder]
  have hr : H.replay (r.user ++ [.normal t (r.files.getLast h3)]) u = H.call s.user (.normal t (r.files.getLast h3)) := by
    rw [replay_snoc, h4]; rfl
  cases hth : H.th with
  | none =>
    refine Or.inl ⟨rfl, rfl, h1, h2, h3, ?_⟩
    simp only
    rw [hr]
    simp only [Handlers.call, hth]
  | some hd =>
    simp only [Handlers.call, hth] at hr
    cases hx : hd s.user t (r.files.getLast h3) with
    | mk v e =>
      rw [hx] at hr
      simp only [hx]
      cases e with
      | none => exact Or.inl ⟨rfl, rfl, h1, rfl, h3, hr⟩
      | some e => exact Or.inr (Or.inr ⟨e, e, rfl, rfl, hr⟩)

theorem callHandler_lock_ph (t : PeriodicTransaction) {s : PState σ} {r : PState (List Call)} (h : InStep H u s r) :
    Lock H u (InStep H u) (callHandler H.ph t s) (callHandler recorder.ph t r) := by
  obtain ⟨h1, h2, h3, h4⟩ := h
  unfold callHandler
  have hl := List.getLast?_eq_getLast_of_ne_nil h3
  rw [h2, hl]
  simp only [recorder]
  have hr : H.replay (r.user ++ [.periodic t (r.files.getLast h3)]) u = H.call s.user (.periodic t (r.files.getLast h3)) := by
    rw [replay_snoc, h4]; rfl
  cases hth : H.ph with
  | none =>
    refine Or.inl ⟨rfl, rfl, h1, h2, h3, ?_⟩
    simp only
    rw [hr]
    simp only [Handlers.call, hth]
  | some hd =>
    simp only [Handlers.call, hth] at hr
    cases hx : hd s.user t (r.files.getLast h3) with
    | mk v e =>
      rw [hx] at hr
      simp only [hx]
      cases e with
      | none => exact Or.inl ⟨rfl, rfl, h1, rfl, h3, hr⟩
      | some e => exact Or.inr (Or.inr ⟨e, e, rfl, rfl, hr⟩)

theorem endTransaction_lock {s : PState σ} {r : PState (List Call)} (h : InStep H u s r) :
    Lock H u (InStep H u) (endTransaction H s) (endTransaction recorder r) := by
  have hh := h
  obtain ⟨h1, h2, h3, h4⟩ := h
  unfold endTransaction
  rw [h1]
  cases r.builder.ttype with
  | normal =>
    simp only
    cases ht : r.builder.transaction with
    | none => exact Or.inl ⟨rfl, rfl, hh⟩
    | some t =>
      simp only
      split
      · exact Or.inr (Or.inl ⟨_, rfl, rfl, h4⟩)
      · refine Lock.andThen (callHandler_lock_th _ ⟨rfl, h2, h3, h4⟩) (fun s r hs => Or.inl ⟨rfl, rfl, ?_, hs.2⟩) (fun t => List.prefix_rfl)
        simp only [hs.1]
  | periodic =>
    simp only
    cases ht : r.builder.periodic with
    | none => exact Or.inl ⟨rfl, rfl, hh⟩
    | some t =>
      simp only
      split
      · exact Or.inr (Or.inl ⟨_, rfl, rfl, h4⟩)
      · refine Lock.andThen (callHandler_lock_ph _ ⟨rfl, h2, h3, h4⟩) (fun s r hs => Or.inl ⟨rfl, rfl, ?_, hs.2⟩) (fun t => List.prefix_rfl)
        simp only [hs.1]

theorem build_lock {s : PState σ} {r : PState (List Call)} (h : InStep H u s r) (x : Step Builder) :
    Lock H u (InStep H u) (liftBuilder s x) (liftBuilder r x) := by
  obtain ⟨b, _ | f⟩ := x
  · exact Or.inl ⟨rfl, rfl, rfl, h.2⟩
  · exact Or.inr (Or.inl ⟨f, rfl, rfl, h.2.2.2⟩)

theorem build_lock_wrap {s : PState σ} {r : PState (List Call)} (h : InStep H u s r) (x : Step Builder) (w : Err → Err) :
    Lock H u (InStep H u) ((liftBuilder s x).wrap w) ((liftBuilder r x).wrap w) := by
  obtain ⟨b, _ | f⟩ := x
  · exact Or.inl ⟨rfl, rfl, rfl, h.2⟩
  · exact Or.inr (Or.inl ⟨_, rfl, rfl, h.2.2.2⟩)

theorem runItems_lock {cb : ItemParser (PState σ)} {cb' : ItemParser (PState (List Call))}
    (hcb : ∀ i c s t, InStep H u s t → Lock H u (InStep H u) (cb i c s) (cb' i c t)) (hg : ∀ i c t, Grow t (cb' i c t))
    (is : List (ItemType × Str)) : (∀ t, Grow t (runItems cb' is t)) ∧
    ∀ s t, InStep H u s t → Lock H u (InStep H u) (runItems cb is s) (runItems cb' is t) := by
  induction is with
  | nil => exact ⟨fun t => List.prefix_rfl, fun s t h => Or.inl ⟨rfl, rfl, h⟩⟩
  | cons i is ih =>
    refine ⟨fun t => ?_, fun s t h => (hcb i.1 i.2 s t h).andThen ih.2 ih.1⟩
    rw [runItems]
    have h1 := hg i.1 i.2 t
    generalize cb' i.1 i.2 t = r at h1
    obtain ⟨t', _ | e⟩ := r
    · exact List.IsPrefix.trans h1 (ih.1 t')
    · exact h1

theorem runLine_lock {cb : ItemParser (PState σ)} {cb' : ItemParser (PState (List Call))}
    (hcb : ∀ i c s t, InStep H u s t → Lock H u (InStep H u) (cb i c s) (cb' i c t)) (hg : ∀ i c t, Grow t (cb' i c t)) (li : LineItems) :
    (∀ t, Grow t (runLine cb' li t)) ∧ ∀ s t, InStep H u s t → Lock H u (InStep H u) (runLine cb li s) (runLine cb' li t) := by
  obtain ⟨g, l⟩ := runItems_lock hcb hg li.items
  constructor
  · intro t
    have h1 := g t
    unfold runLine
    generalize runItems cb' li.items t = r at h1
    obtain ⟨t', _ | e⟩ := r
    · cases li.err <;> exact h1
    · exact h1
  · intro s t h
    refine (l s t h).andThen (fun s t h => ?_) (fun t => List.prefix_rfl)
    cases li.err with
    | none => exact Or.inl ⟨rfl, rfl, h⟩
    | some e => exact Or.inr (Or.inl ⟨_, rfl, rfl, h.2.2.2⟩)

theorem lexLoop_lock [Unicode] {cb : ItemParser (PState σ)} {cb' : ItemParser (PState (List Call))}
    (hcb : ∀ i c s t, InStep H u s t → Lock H u (InStep H u) (cb i c s) (cb' i c t)) (hg : ∀ i c t, Grow t (cb' i c t)) (hint : Str)
    (lines : List RawLine) : (∀ n t, Grow t (lexLoop cb' hint n lines t)) ∧
    ∀ n s t, InStep H u s t → Lock H u (InStep H u) (lexLoop cb hint n lines s) (lexLoop cb' hint n lines t) := by
  induction lines with
  | nil => exact ⟨fun n t => hg _ _ t, fun n s t h => hcb _ _ s t h⟩
  | cons l ls ih =>
    cases l with
    | tooLong => exact ⟨fun n t => List.prefix_rfl, fun n s t h => Or.inr (Or.inl ⟨_, rfl, rfl, h.2.2.2⟩)⟩
    | line b =>
      obtain ⟨g, l⟩ := runLine_lock hcb hg (lineItems hint (runes b))
      constructor
      · intro n t
        rw [lexLoop_line]
        have h1 := g t
        generalize runLine cb' (lineItems hint (runes b)) t = r at h1
        obtain ⟨t', _ | e⟩ := r
        · exact List.IsPrefix.trans h1 (ih.1 _ t')
        · exact h1
      · intro n s t h
        rw [lexLoop_line, lexLoop_line]
        exact ((l s t h).wrap (w := .atLine hint n) (fun e => rfl)).andThen (ih.2 _) (ih.1 _)

theorem parseItem_lock [Unicode] (fs : FileSystem) : ∀ (n : Nat) (item : ItemType) (content : Str) (s : PState σ) (t : PState (List Call)),
    InStep H u s t → Lock H u (InStep H u) (parseItem fs H n item content s) (parseItem fs recorder n item content t) := by
  intro n
  have hbg : ∀ {s : PState σ} {t : PState (List Call)} (k : TransactionType), InStep H u s t →
      InStep H u { s with builder := s.builder.begin k } { t with builder := t.builder.begin k } := by
    intro s t k h; exact ⟨by simp only [h.1], h.2⟩
  have hdr : ∀ (s : PState σ) (t : PState (List Call)) (k : TransactionType) (i : ItemType) (c : Str) (w : Err → Err), InStep H u s t →
      Lock H u (InStep H u)
        ((endTransaction H s).andThen fun st => (liftBuilder { st with builder := st.builder.begin k } ((st.builder.begin k).build i c)).wrap w)
        ((endTransaction recorder t).andThen fun st => (liftBuilder { st with builder := st.builder.begin k } ((st.builder.begin k).build i c)).wrap w) := by
    intro s t k i c w h
    refine (endTransaction_lock h).andThen (fun s t h => ?_) (fun t => List.prefix_rfl)
    rw [h.1]
    exact build_lock_wrap (hbg k h) _ w
  induction n with
  | zero =>
    intro item content s t h
    cases item <;> simp only [parseItem]
    case includeItem => exact Or.inr (Or.inl ⟨_, rfl, rfl, h.2.2.2⟩)
    case dateItem => exact hdr s t _ _ _ _ h
    case periodItem => exact hdr s t _ _ _ _ h
    case emptyLineItem => exact endTransaction_lock h
    case eofItem => exact endTransaction_lock h
    all_goals rw [h.1]; exact build_lock h _
  | succ n ih =>
    intro item content s t h
    cases item <;> simp only [parseItem]
    case includeItem =>
      cases fs content with
      | none => exact Or.inr (Or.inl ⟨_, rfl, rfl, h.2.2.2⟩)
      | some bytes =>
        obtain ⟨g, l⟩ := lexLoop_lock ih (parseItem_grow fs n) content (readLines bytes)
        have h0 : InStep H u { s with files := s.files ++ [content] } { t with files := t.files ++ [content] } :=
          ⟨h.1, by simp only [h.2.1], by simp, h.2.2.2⟩
        refine Lock.andThen ((l 1 _ _ h0).wrap (w := .errorAt) (fun e => rfl))
          (fun s t h => Or.inl ⟨rfl, rfl, h.1, by simp only [h.2.1], ?_, h.2.2.2⟩) (fun t => List.prefix_rfl)
        intro h0
        apply h.2.2.1
        simpa using h0
    case dateItem => exact hdr s t _ _ _ _ h
    case periodItem => exact hdr s t _ _ _ _ h
    case emptyLineItem => exact endTransaction_lock h
    case eofItem => exact endTransaction_lock h
    all_goals rw [h.1]; exact build_lock h _

/-- Parsing with any handlers: their state is that of replaying what the journal delivers, up to the first call that
fails; the parse fails with that call's failure, or with the journal's own if none fails. -/
theorem parse_replay [Unicode] (fs : FileSystem) (H : Handlers σ) (maxOpen : Nat) (bytes : List UInt8) (path : Str) (u : σ) :
    let run := parse fs H maxOpen bytes path (newParser u)
    let rep := H.replay (delivered fs maxOpen bytes path) u
    run.1.user = rep.1 ∧ (rep.2 = none → run.2 = rejection fs maxOpen bytes path) ∧
      ∀ e, rep.2 = some e → ∃ f, run.2 = some f ∧ f.core = e.core := by
  have h := ((lexLoop_lock (parseItem_lock (H := H) (u := u) fs maxOpen) (parseItem_grow fs maxOpen) path (readLines bytes)).2 1
    (rootStart u path) (rootStart [] path) ⟨rfl, rfl, by simp [rootStart], rfl⟩).wrap (w := .errorAt) (fun e => rfl)
  rw [← parse_new_lexLoop, ← parse_new_lexLoop] at h
  unfold delivered rejection
  simp only
  generalize parse fs H maxOpen bytes path (newParser u) = a at h
  generalize parse fs recorder maxOpen bytes path (newParser []) = b at h
  rcases h with ⟨h1, h2, h3⟩ | ⟨f, h1, h2, h3⟩ | ⟨f, e, h1, h2, h3⟩
  · rw [h3.2.2.2]
    exact ⟨rfl, fun _ => by rw [h1, h2], fun e he => by cases he⟩
  · rw [h3]
    exact ⟨rfl, fun _ => by rw [h1, h2], fun e he => by cases he⟩
  · rw [h3]
    refine ⟨rfl, ?_, ?_⟩
    · intro he; cases he
    · intro e' he; cases he; exact ⟨f, h1, h2⟩

theorem runParse_ok [Unicode] {fs : FileSystem} {maxOpen : Nat} {bytes : List UInt8} {path : Str} {H : Handlers σ} {u v : σ} :
    (∃ st, parse fs H maxOpen bytes path (newParser u) = (st, none) ∧ st.user = v) ↔
      rejection fs maxOpen bytes path = none ∧ H.replay (delivered fs maxOpen bytes path) u = (v, none) := by
  obtain ⟨h1, h2, h3⟩ := parse_replay fs H maxOpen bytes path u
  generalize parse fs H maxOpen bytes path (newParser u) = a at h1 h2 h3
  generalize H.replay (delivered fs maxOpen bytes path) u = r at h1 h2 h3
  obtain ⟨st, x⟩ := a
  obtain ⟨w, y⟩ := r
  simp only at h1 h2 h3
  constructor
  · rintro ⟨st', he, rfl⟩
    cases he
    cases y with
    | none => exact ⟨(h2 rfl).symm, by rw [h1]⟩
    | some y => obtain ⟨f, hf, _⟩ := h3 y rfl; cases hf
  · rintro ⟨hr, he⟩
    cases he
    exact ⟨st, by rw [h2 rfl, hr], h1⟩

end Gledger
