import Verif.Lemmas.Written
import Verif.Lemmas.Parse
import Verif.Lemmas.AddAll

/-! What the parser does with the lines of a written entry. -/

namespace Gledger

variable {σ : Type}

theorem parseItem_build [Unicode] (fs : FileSystem) (H : Handlers σ) (n : Nat) (item : ItemType) (hi : item.structural = false)
    (content : Str) (st : PState σ) : parseItem fs H n item content st = liftBuilder st (st.builder.build item content) := by
  cases item <;> simp [ItemType.structural] at hi <;> cases n <;> rfl

/-- Lines given by their text. -/
def rawLines (ls : List Str) : List RawLine := ls.map fun l => .line (encode l)

@[simp] theorem rawLines_nil : rawLines [] = [] := rfl
@[simp] theorem rawLines_cons (l : Str) (ls : List Str) : rawLines (l :: ls) = .line (encode l) :: rawLines ls := rfl
@[simp] theorem rawLines_append (as bs : List Str) : rawLines (as ++ bs) = rawLines as ++ rawLines bs := by simp [rawLines]
@[simp] theorem rawLines_length (as : List Str) : (rawLines as).length = as.length := by simp [rawLines]

theorem feedLines_one [Unicode] {S : Type} (cb : ItemParser S) (hint : Str) (n : Nat) (l : Str) (rest : List RawLine) (s s' : S)
    (is : List (ItemType × Str)) (hl : lineItems hint l = { items := is }) (h : runItems cb is s = (s', none)) :
    feedLines cb hint n (.line (encode l) :: rest) s = feedLines cb hint (n + 1) rest s' := by
  rw [feedLines, runes_encode, hl]
  simp [runLine, h, Step.andThen, Step.wrap]

/-- A builder in the middle of a transaction (`none`) or a periodic transaction. -/
def building (kind : Option Period) (t : Transaction) (p : Posting) (prev : Option ItemType) : Builder :=
  match kind with
  | none => ⟨.normal, some t, none, some p, prev⟩
  | some per => ⟨.periodic, none, some ⟨per, t⟩, some p, prev⟩

/-- A posting may follow. -/
def MayFollow (prev : Option ItemType) : Prop :=
  prev = some .commentItem ∨ prev = some .transactionHeaderCommentItem ∨ prev = some .payeeItem ∨
    prev = some .amountItem ∨ prev = some .accountItem ∨ prev = some .periodItem

/-- Adding the pending posting, if there is one. -/
def pend (t : Transaction) (p : Posting) : Transaction := if p.accountPath = [] then t else (t.addPosting p).1

/-- A posting without anything yet. -/
def Posting.Fresh (p : Posting) : Prop := p.accountPath = [] → p.comments = [] ∧ p.amount = none

theorem build_account (kind : Option Period) (t : Transaction) (p : Posting) (hp : p.Fresh) (prev : Option ItemType)
    (h : MayFollow prev) (account : Str) :
    (building kind t p prev).build .accountItem account =
      (building kind (pend t p) { linked := true, accountPath := account } (some .accountItem), none) := by
  have hm : ¬ (prev ≠ some .commentItem ∧ prev ≠ some .transactionHeaderCommentItem ∧
       prev ≠ some .payeeItem ∧ prev ≠ some .amountItem ∧ prev ≠ some .accountItem ∧
       prev ≠ some .periodItem) := by
    unfold MayFollow at h
    tauto
  by_cases hpa : p.accountPath = []
  · obtain ⟨h1, h2⟩ := hp hpa
    obtain ⟨l, c, a, m⟩ := p
    simp only at h1 h2 hpa
    subst h1 h2 hpa
    cases kind <;> simp [building, Builder.build, Builder.buildPeriodic, Builder.buildNormal, hm, Builder.target, pend, Step.andThen]
  · have hl : p.accountPath.length ≠ 0 := by simpa using hpa
    cases kind <;>
      simp only [building, Builder.build, Builder.buildPeriodic, Builder.buildNormal, hm, if_false, hl, if_pos, Builder.target,
        Option.map_some, pend, hpa, Builder.setTarget, Step.andThen, ne_eq, not_false_eq_true]

theorem build_commodity (kind : Option Period) (t : Transaction) (p : Posting) (hp : p.amount = none) (c : Str) :
    (building kind t p (some .accountItem)).build .commodityItem c =
      (building kind t { p with amount := some ⟨c, 0⟩ } (some .commodityItem), none) := by
  cases kind <;> simp [building, Builder.build, Builder.buildPeriodic, Builder.buildNormal, Step.andThen, hp]

theorem build_amount (kind : Option Period) (t : Transaction) (p : Posting) (c : Str) (q0 : I64) (hp : p.amount = some ⟨c, q0⟩)
    (n : Str) (q : I64) (hq : parseAmount n = .ok q) :
    (building kind t p (some .commodityItem)).build .amountItem n =
      (building kind t { p with amount := some ⟨c, q⟩ } (some .amountItem), none) := by
  cases kind <;> simp [building, Builder.build, Builder.buildPeriodic, Builder.buildNormal, Step.andThen, hp, hq]

theorem build_comment (kind : Option Period) (t : Transaction) (p : Posting) (hp : p.accountPath ≠ []) (prev : Option ItemType) (c : Str) :
    (building kind t p prev).build .commentItem c =
      (building kind t { p with comments := p.comments ++ [c] } (some .commentItem), none) := by
  have hl : p.accountPath.length ≠ 0 := by simpa using hp
  cases kind <;> simp [building, Builder.build, Builder.buildPeriodic, Builder.buildNormal, Step.andThen, hp]

theorem build_note (t : Transaction) (p : Posting) (hp : p.accountPath = []) (prev : Option ItemType) (c : Str) :
    (building none t p prev).build .commentItem c =
      (building none { t with notes := t.notes ++ [c] } p (some .commentItem), none) := by
  simp [building, Builder.build, Builder.buildNormal, Step.andThen, hp]

theorem account_ne_nil [Unicode] {s : Str} (h : AccountText s) : s ≠ [] := by
  obtain ⟨⟨c, hc, _⟩, _⟩ := h
  rintro rfl
  simp at hc

/-- A posting line. -/
theorem feed_posting_line [Unicode] (fs : FileSystem) (H : Handlers σ) (m : Nat) (hint : Str) (k : Nat) (rest : List RawLine)
    (kind : Option Period) (t : Transaction) (p0 : Posting) (hp0 : p0.Fresh) (prev : Option ItemType) (hprev : MayFollow prev)
    (fl : List Str) (u : σ) (p : WrittenPosting) (hp : p.Ok) :
    ∃ prev', MayFollow prev' ∧
      feedLines (parseItem fs H m) hint k (.line (encode p.line) :: rest) ⟨building kind t p0 prev, fl, u⟩ =
        feedLines (parseItem fs H m) hint (k + 1) rest
          ⟨building kind (pend t p0) ⟨true, [], p.account, p.amount.map WrittenAmount.meaning⟩ prev', fl, u⟩ := by
  have hitems := posting_items hint hp
  unfold WrittenPosting.amountItems at hitems
  cases ha : p.amount with
  | none =>
    rw [ha] at hitems
    refine ⟨some .accountItem, by simp [MayFollow], feedLines_one _ _ _ _ _ _ _ _ hitems ?_⟩
    simp only [runItems, parseItem_build fs H m .accountItem rfl, build_account kind t p0 hp0 prev hprev, liftBuilder, Step.andThen]
    rfl
  | some a =>
    rw [ha] at hitems
    refine ⟨some .amountItem, by simp [MayFollow], feedLines_one _ _ _ _ _ _ _ _ hitems ?_⟩
    simp only [runItems, parseItem_build fs H m .accountItem rfl, parseItem_build fs H m .commodityItem rfl,
      parseItem_build fs H m .amountItem rfl, build_account kind t p0 hp0 prev hprev, liftBuilder, Step.andThen]
    rw [build_commodity kind _ _ rfl]
    simp only
    rw [build_amount kind _ _ _ _ rfl _ _ (hp.2.2.1 a (by simp [ha])).2.2.2.2.2.2.2.1]
    rfl

/-- The notes below a posting. -/
theorem feed_posting_notes [Unicode] (fs : FileSystem) (H : Handlers σ) (m : Nat) (hint : Str) (rest : List RawLine)
    (kind : Option Period) (t : Transaction) (fl : List Str) (u : σ) (notes : List Note) (hn : ∀ n ∈ notes, n.Ok) :
    ∀ (k : Nat) (p : Posting) (_ : p.accountPath ≠ []) (prev : Option ItemType) (_ : MayFollow prev), ∃ prev', MayFollow prev' ∧
      feedLines (parseItem fs H m) hint k (rawLines (notes.map Note.line) ++ rest) ⟨building kind t p prev, fl, u⟩ =
        feedLines (parseItem fs H m) hint (k + notes.length) rest
          ⟨building kind t { p with comments := p.comments ++ notes.map (·.comment.text) } prev', fl, u⟩ := by
  induction notes with
  | nil =>
    intro k p hp prev hprev
    exact ⟨prev, hprev, by simp⟩
  | cons n notes ih =>
    intro k p hp prev hprev
    obtain ⟨prev', h1, h2⟩ := ih (fun n' hn' => hn n' (by simp [hn'])) (k + 1)
      { p with comments := p.comments ++ [n.comment.text] } hp (some .commentItem) (by simp [MayFollow])
    refine ⟨prev', h1, ?_⟩
    rw [List.map_cons, rawLines_cons, List.cons_append,
      feedLines_one _ _ _ _ _ _ ⟨building kind t { p with comments := p.comments ++ [n.comment.text] } (some .commentItem), fl, u⟩ _
        (note_items hint (hn n (by simp)))]
    · rw [h2]
      simp [Nat.add_assoc, Nat.add_comm 1]
    · simp only [runItems, parseItem_build fs H m .commentItem rfl, build_comment kind t p hp, liftBuilder, Step.andThen]

/-- The transaction so far and the pending posting, after further postings. -/
def settle (t : Transaction) (p : Posting) : List Posting → Transaction × Posting
  | [] => (t, p)
  | q :: qs => settle (pend t p) q qs

/-- Posting lines with their notes. -/
theorem feed_postings [Unicode] (fs : FileSystem) (H : Handlers σ) (m : Nat) (hint : Str) (rest : List RawLine)
    (kind : Option Period) (fl : List Str) (u : σ) (ps : List WrittenPosting) (hps : ∀ p ∈ ps, p.Ok) :
    ∀ (k : Nat) (t : Transaction) (p0 : Posting) (_ : p0.Fresh) (prev : Option ItemType) (_ : MayFollow prev),
      ∃ k' prev', MayFollow prev' ∧
      feedLines (parseItem fs H m) hint k (rawLines (ps.flatMap WrittenPosting.lines) ++ rest) ⟨building kind t p0 prev, fl, u⟩ =
        feedLines (parseItem fs H m) hint k' rest
          ⟨building kind (settle t p0 (ps.map WrittenPosting.meaning)).1 (settle t p0 (ps.map WrittenPosting.meaning)).2 prev', fl, u⟩ := by
  induction ps with
  | nil =>
    intro k t p0 hp0 prev hprev
    exact ⟨k, prev, hprev, by simp [settle]⟩
  | cons p ps ih =>
    intro k t p0 hp0 prev hprev
    have hp := hps p (by simp)
    have hacc := account_ne_nil hp.2.1
    obtain ⟨prev1, h1, e1⟩ := feed_posting_line fs H m hint k
      (rawLines (p.notes.map Note.line) ++ (rawLines (ps.flatMap WrittenPosting.lines) ++ rest)) kind t p0 hp0 prev hprev fl u p hp
    obtain ⟨prev2, h2, e2⟩ := feed_posting_notes fs H m hint (rawLines (ps.flatMap WrittenPosting.lines) ++ rest) kind (pend t p0) fl u
      p.notes hp.2.2.2 (k + 1) ⟨true, [], p.account, p.amount.map WrittenAmount.meaning⟩ hacc prev1 h1
    obtain ⟨k3, prev3, h3, e3⟩ := ih (fun q hq => hps q (by simp [hq])) (k + 1 + p.notes.length) (pend t p0) p.meaning
      (fun h => absurd h hacc) prev2 h2
    refine ⟨k3, prev3, h3, ?_⟩
    rw [List.flatMap_cons, rawLines_append, List.append_assoc, WrittenPosting.lines, rawLines_cons, List.cons_append, e1, e2]
    exact e3

/-- The notes below a header. -/
theorem feed_header_notes [Unicode] (fs : FileSystem) (H : Handlers σ) (m : Nat) (hint : Str) (rest : List RawLine)
    (p : Posting) (hp : p.accountPath = []) (fl : List Str) (u : σ) (notes : List Note) (hn : ∀ n ∈ notes, n.Ok) :
    ∀ (k : Nat) (t : Transaction) (prev : Option ItemType) (_ : MayFollow prev), ∃ prev', MayFollow prev' ∧
      feedLines (parseItem fs H m) hint k (rawLines (notes.map Note.line) ++ rest) ⟨building none t p prev, fl, u⟩ =
        feedLines (parseItem fs H m) hint (k + notes.length) rest
          ⟨building none { t with notes := t.notes ++ notes.map (·.comment.text) } p prev', fl, u⟩ := by
  induction notes with
  | nil =>
    intro k t prev hprev
    exact ⟨prev, hprev, by simp⟩
  | cons n notes ih =>
    intro k t prev hprev
    obtain ⟨prev', h1, h2⟩ := ih (fun n' hn' => hn n' (by simp [hn'])) (k + 1)
      { t with notes := t.notes ++ [n.comment.text] } (some .commentItem) (by simp [MayFollow])
    refine ⟨prev', h1, ?_⟩
    rw [List.map_cons, rawLines_cons, List.cons_append,
      feedLines_one _ _ _ _ _ _ ⟨building none { t with notes := t.notes ++ [n.comment.text] } p (some .commentItem), fl, u⟩ _
        (note_items hint (hn n (by simp)))]
    · rw [h2]
      simp [Nat.add_assoc, Nat.add_comm 1]
    · simp only [runItems, parseItem_build fs H m .commentItem rfl, build_note t p hp, liftBuilder, Step.andThen]

/-- A header line, when no transaction is open. -/
theorem feed_header [Unicode] (fs : FileSystem) (H : Handlers σ) (m : Nat) (hint : Str) (k : Nat) (rest : List RawLine)
    (st : PState σ) (hst : st.builder.Idle) (h : Header) (hh : h.Ok) :
    ∃ prev', MayFollow prev' ∧
      feedLines (parseItem fs H m) hint k (.line (encode h.line) :: rest) st =
        feedLines (parseItem fs H m) hint (k + 1) rest
          ⟨building none h.meaning { linked := true } prev', st.files, st.user⟩ := by
  have hitems := header_items hint hh
  have hdate := hh.2.2.1
  obtain ⟨b, fl, u⟩ := st
  obtain ⟨i1, i2, i3⟩ := hst
  obtain ⟨tt, tr, pe, cu, pv⟩ := b
  simp only at i1 i2 i3
  subst i1 i2 i3
  -- the date
  have hd : parseItem fs H m .dateItem h.date ⟨⟨tt, none, none, none, pv⟩, fl, u⟩ =
      (⟨building none { date := h.day } { linked := true } (some .dateItem), fl, u⟩, none) := by
    rw [parseItem_date, endTransaction_of_idle H _ ⟨rfl, rfl, rfl⟩]
    simp [Step.andThen, Builder.begin, Builder.build, Builder.buildNormal, hdate, Builder.target, Builder.setTarget, liftBuilder,
      Step.wrap, building]
  -- the state
  have hs : ∀ is, runItems (parseItem fs H m) (h.stateItems ++ (.payeeItem, h.payee) :: is)
      ⟨building none { date := h.day } { linked := true } (some .dateItem), fl, u⟩ =
      runItems (parseItem fs H m) is
        ⟨building none { date := h.day, state := h.state, payee := h.payee } { linked := true } (some .payeeItem), fl, u⟩ := by
    intro is
    unfold Header.stateItems
    cases hst : h.state with
    | noState =>
      simp [parseItem_build fs H m .payeeItem rfl, liftBuilder, building, Builder.build, Builder.buildNormal,
        Builder.target, Builder.setTarget, Step.andThen]
    | uncleared =>
      simp [runItems, parseItem_build fs H m .payeeItem rfl, parseItem_build fs H m .stateItem rfl, liftBuilder, building,
        Builder.build, Builder.buildNormal, Builder.target, Builder.setTarget, Step.andThen, TransactionState.mark]
    | cleared =>
      simp [runItems, parseItem_build fs H m .payeeItem rfl, parseItem_build fs H m .stateItem rfl, liftBuilder, building,
        Builder.build, Builder.buildNormal, Builder.target, Builder.setTarget, Step.andThen, TransactionState.mark]
  unfold Header.noteItems at hitems
  cases hn : h.note with
  | none =>
    rw [hn] at hitems
    refine ⟨some .payeeItem, by simp [MayFollow], feedLines_one _ _ _ _ _ _ _ _ hitems ?_⟩
    rw [runItems, hd]
    simp only [Step.andThen]
    rw [hs]
    simp [runItems, Header.meaning, hn]
  | some nt =>
    rw [hn] at hitems
    refine ⟨some .transactionHeaderCommentItem, by simp [MayFollow], feedLines_one _ _ _ _ _ _ _ _ hitems ?_⟩
    rw [runItems, hd]
    simp only [Step.andThen]
    rw [hs]
    simp [runItems, parseItem_build fs H m .transactionHeaderCommentItem rfl, liftBuilder, building, Builder.build,
      Builder.buildNormal, Step.andThen, Header.meaning, hn]

/-- The lines of an entry, when no transaction is open. -/
theorem feed_entry_may [Unicode] (fs : FileSystem) (H : Handlers σ) (m : Nat) (hint : Str) (k : Nat) (rest : List RawLine)
    (st : PState σ) (hst : st.builder.Idle) (e : Entry) (he : e.Ok) :
    ∃ k' prev', MayFollow prev' ∧
      feedLines (parseItem fs H m) hint k (rawLines e.lines ++ rest) st =
        feedLines (parseItem fs H m) hint k' rest
          ⟨building none (settle e.heading { linked := true } e.body).1 (settle e.heading { linked := true } e.body).2 prev',
            st.files, st.user⟩ := by
  obtain ⟨prev1, h1, e1⟩ := feed_header fs H m hint k
    (rawLines (e.notes.map Note.line) ++ (rawLines (e.postings.flatMap WrittenPosting.lines) ++ rest)) st hst e.header he.1
  obtain ⟨prev2, h2, e2⟩ := feed_header_notes fs H m hint (rawLines (e.postings.flatMap WrittenPosting.lines) ++ rest) { linked := true } rfl
    st.files st.user e.notes he.2.1 (k + 1)
    e.header.meaning prev1 h1
  obtain ⟨k3, prev3, h3, e3⟩ := feed_postings fs H m hint rest none st.files st.user e.postings he.2.2 (k + 1 + e.notes.length)
    e.heading { linked := true } (fun _ => ⟨rfl, rfl⟩) prev2 h2
  refine ⟨k3, prev3, h3, ?_⟩
  rw [Entry.lines, rawLines_cons, List.cons_append, rawLines_append, List.append_assoc, e1, e2]
  exact e3

theorem feed_entry [Unicode] (fs : FileSystem) (H : Handlers σ) (m : Nat) (hint : Str) (k : Nat) (rest : List RawLine)
    (st : PState σ) (hst : st.builder.Idle) (e : Entry) (he : e.Ok) :
    ∃ k' prev',
      feedLines (parseItem fs H m) hint k (rawLines e.lines ++ rest) st =
        feedLines (parseItem fs H m) hint k' rest
          ⟨building none (settle e.heading { linked := true } e.body).1 (settle e.heading { linked := true } e.body).2 prev',
            st.files, st.user⟩ := by
  obtain ⟨k', prev', _, h⟩ := feed_entry_may fs H m hint k rest st hst e he
  exact ⟨k', prev', h⟩

end Gledger
