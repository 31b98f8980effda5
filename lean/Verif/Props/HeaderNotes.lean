/-
C23, continued: what is read of a header line whatever follows the payee.
-/
import Verif.Props.Malformed
import Verif.Lemmas.LineKinds
import Verif.Props.Delivered

namespace Gledger

set_option maxRecDepth 100000

variable {σ : Type}

/-- A header line up to and including the payee. -/
def Header.front (h : Header) : Str := h.date ++ (h.gap ++ (h.state.mark ++ (h.gap2 ++ h.payee)))

/-- What follows the payee only matters to the payee and the note. -/
theorem header_front [U : Unicode] (hint : Str) {h : Header} (hh : h.Ok) (hp : h.payee ≠ []) (tl : Str) :
    lineItems hint (h.front ++ tl) = { items := (.dateItem, h.date) :: (h.stateItems ++ payeeItems (h.payee ++ tl)) } := by
  obtain ⟨⟨c, hc, hnum⟩, hd, _, hg1, hg2, hg3, hst, hf, hink, _⟩ := hh
  have hgap : (h.gap ++ (h.state.mark ++ (h.gap2 ++ (h.payee ++ tl)))).head? = some ' ' := by
    rcases hg2 with hg2 | ⟨_, _, h0⟩
    · cases hgap : h.gap with
      | nil => rw [hgap] at hg2; simp at hg2
      | cons x xs => rw [hgap] at hg2; simpa using hg2
    · exact absurd h0 hp
  obtain ⟨k1, k2⟩ := takeWhile_word hd (Or.inr hgap)
  have hline : h.front ++ tl = h.date ++ (h.gap ++ (h.state.mark ++ (h.gap2 ++ (h.payee ++ tl)))) := by
    simp [Header.front]
  rw [hline]
  have hcons : ∃ cs, h.date = c :: cs := by
    cases hn : h.date with
    | nil => rw [hn] at hc; simp at hc
    | cons x xs => rw [hn] at hc; exact ⟨xs, by simpa using hc⟩
  obtain ⟨cs, hcs⟩ := hcons
  obtain ⟨n1, n2, n3, n4⟩ := number_not_special hnum
  generalize hl : h.date ++ (h.gap ++ (h.state.mark ++ (h.gap2 ++ (h.payee ++ tl)))) = l at k1 k2
  have hl' : l = c :: (cs ++ (h.gap ++ (h.state.mark ++ (h.gap2 ++ (h.payee ++ tl))))) := by rw [← hl, hcs]; rfl
  have : lineItems hint l = headerItems l := by
    rw [hl', lineItems, if_neg (by tauto), if_neg n3, if_neg n4, if_pos hnum]
  rw [this, headerItems, k1, k2]
  congr 2
  have hpink : StartsInk (h.payee ++ tl) := hink.append hp
  have hmark : StartsInk (h.state.mark ++ (h.gap2 ++ (h.payee ++ tl))) := by
    cases hs : h.state with
    | noState => rw [(hst hs).1]; exact hpink
    | uncleared => intro d hd; simp [TransactionState.mark] at hd; subst hd; decide
    | cleared => intro d hd; simp [TransactionState.mark] at hd; subst hd; decide
  unfold Gledger.stateItems Header.stateItems
  rw [afterSpace_skip hg1 hmark]
  cases hs : h.state with
  | noState =>
    obtain ⟨e, m1, m2⟩ := hst hs
    rw [e]
    simp only [TransactionState.mark, List.nil_append]
    cases hpay : h.payee with
    | nil => exact absurd hpay hp
    | cons x xs =>
      rw [hpay] at m1 m2
      simp only [List.head?_cons, ne_eq, Option.some.injEq] at m1 m2
      rw [List.cons_append]
      split
      · rename_i he; cases he; exact absurd rfl m1
      · rename_i he; cases he; exact absurd rfl m2
      · rfl
  | uncleared =>
    simp only [TransactionState.mark, List.cons_append, List.nil_append, afterSpace_skip hg3 hpink]
  | cleared =>
    simp only [TransactionState.mark, List.cons_append, List.nil_append, afterSpace_skip hg3 hpink]

/-- What ends the payee: a comment character or a tab, one of these after a blank, or two blanks. -/
def PayeeEnd (s : Str) : Prop := s = [' ', ' '] ∨ ∃ c, (c = ';' ∨ c = '#' ∨ c = '\t') ∧ (s = [c] ∨ s = [' ', c])

theorem payee_rest {p : Str} (hf : FieldText p) {e : Str} (he : PayeeEnd e) (r : Str) :
    ∃ k, field (p ++ (e ++ r)) = (p, List.replicate k ' ' ++ r) := by
  rcases he with rfl | ⟨c, hc, rfl | rfl⟩
  · exact ⟨1, field_blanks hf r⟩
  · exact ⟨0, field_stop hf hc r⟩
  · exact ⟨0, field_blank_stop hf hc r⟩

/-- Two lines with the same items are interchangeable. -/
theorem parse_line_congr [Unicode] (fs : FileSystem) (H : Handlers σ) (maxOpen : Nat) (path : Str) (s : PState σ) (a b : List UInt8)
    (ha : WholeLines a) {l l' : Str} (hl : PlainLine (encode l)) (hl' : PlainLine (encode l')) (h : lineItems path l = lineItems path l') :
    parse fs H maxOpen (a ++ (encode l ++ 10 :: b)) path s = parse fs H maxOpen (a ++ (encode l' ++ 10 :: b)) path s := by
  have h1 : ∀ l, PlainLine (encode l) → readLines (a ++ (encode l ++ 10 :: b)) = readLines a ++ .line (encode l) :: readLines b := by
    intro l hfit
    rw [readLines_append ha, readLines_line _ _ hfit.1, terminatedLine_plain (by have := hfit.2.2; omega) hfit.2.1]
  unfold parse lex
  simp only [h1 l hl, h1 l' hl', lexLoop_append]
  congr 2
  funext s
  simp only [lexLoop, lexLine_eq, runes_encode, h]

/-- Whatever ends the payee, the next character that is not a blank is taken for the `;` and lost: what follows it is the note. So the
line is read like one with two blanks and a `;` in its place. -/
theorem C23_lost_character_partial [Unicode] (fs : FileSystem) (H : Handlers σ) (maxOpen : Nat) (path : Str) (s : PState σ) (a b : List UInt8)
    (ha : WholeLines a) {h : Header} {n : Comment} (hh : { h with note := some ([' ', ' '], n) }.Ok)
    {e : Str} (he : PayeeEnd e) (k : Nat) {c : Char} (hc : c ≠ ' ')
    (hl : PlainLine (encode (h.front ++ (e ++ (List.replicate k ' ' ++ c :: (List.replicate n.blanks ' ' ++ n.text))))))
    (hl' : PlainLine (encode { h with note := some ([' ', ' '], n) }.line)) :
    parse fs H maxOpen (a ++ (encode (h.front ++ (e ++ (List.replicate k ' ' ++ c :: (List.replicate n.blanks ' ' ++ n.text)))) ++ 10 :: b)) path s =
      parse fs H maxOpen (a ++ (encode { h with note := some ([' ', ' '], n) }.line ++ 10 :: b)) path s := by
  have hn := hh.2.2.2.2.2.2.2.2.2 _ rfl
  have hf : FieldText h.payee := hh.2.2.2.2.2.2.2.1
  obtain ⟨hp, ⟨_, ht1, ht2⟩, _⟩ := hn
  refine parse_line_congr fs H maxOpen path s a b ha hl hl' ?_
  rw [header_items path hh]
  have this : lineItems path (h.front ++ (e ++ (List.replicate k ' ' ++ c :: (List.replicate n.blanks ' ' ++ n.text)))) = _ :=
    header_front path hh hp (e ++ (List.replicate k ' ' ++ c :: (List.replicate n.blanks ' ' ++ n.text)))
  rw [this]
  obtain ⟨k', hk'⟩ := payee_rest hf he (List.replicate k ' ' ++ c :: (List.replicate n.blanks ' ' ++ n.text))
  simp only [payeeItems]
  rw [hk']
  simp only
  rw [← List.append_assoc, List.replicate_append_replicate, trimSpaceStart_blanks (by simpa using hc) (by simp), if_neg (by simp),
    List.tail_cons, trimSpaceStart_blanks ht1 ht2]
  rfl

/-- The same if only blanks follow the lost character: the note is then made of blanks. -/
theorem C23_blanks_after_lost_partial [Unicode] (fs : FileSystem) (H : Handlers σ) (maxOpen : Nat) (path : Str) (s : PState σ) (a b : List UInt8)
    (ha : WholeLines a) {h : Header} (hh : { h with note := none }.Ok) (hp : h.payee ≠ []) {e : Str} (he : PayeeEnd e) (k n : Nat) {c : Char} (hc : c ≠ ' ')
    (hl : PlainLine (encode (h.front ++ (e ++ (List.replicate k ' ' ++ c :: List.replicate n ' ')))))
    (hl' : PlainLine (encode (h.front ++ ([' ', ' ', ';'] ++ List.replicate n ' ')))) :
    parse fs H maxOpen (a ++ (encode (h.front ++ (e ++ (List.replicate k ' ' ++ c :: List.replicate n ' '))) ++ 10 :: b)) path s =
      parse fs H maxOpen (a ++ (encode (h.front ++ ([' ', ' ', ';'] ++ List.replicate n ' ')) ++ 10 :: b)) path s := by
  have hf : FieldText h.payee := hh.2.2.2.2.2.2.2.1
  refine parse_line_congr fs H maxOpen path s a b ha hl hl' ?_
  have h1 : lineItems path (h.front ++ (e ++ (List.replicate k ' ' ++ c :: List.replicate n ' '))) = _ := header_front path hh hp _
  have h2 : lineItems path (h.front ++ ([' ', ' ', ';'] ++ List.replicate n ' ')) = _ := header_front path hh hp _
  rw [h1, h2]
  obtain ⟨k', hk'⟩ := payee_rest hf he (List.replicate k ' ' ++ c :: List.replicate n ' ')
  have hk2 : field (h.payee ++ ([' ', ' ', ';'] ++ List.replicate n ' ')) = (h.payee, List.replicate 1 ' ' ++ ';' :: List.replicate n ' ') := field_blanks hf _
  simp only [payeeItems]
  rw [hk', hk2]
  simp only
  rw [← List.append_assoc, List.replicate_append_replicate, trimSpaceStart_blanks (by simpa using hc) (by simp), trimSpaceStart_blanks (by simp) (by simp),
    if_neg (by simp), if_neg (by simp)]
  rfl

/-- The same if only blanks follow what ends the payee: one of them is lost (the second, if two of them end the payee), the others are the note. -/
theorem C23_blanks_only_partial [Unicode] (fs : FileSystem) (H : Handlers σ) (maxOpen : Nat) (path : Str) (s : PState σ) (a b : List UInt8)
    (ha : WholeLines a) {h : Header} (hh : { h with note := none }.Ok) (hp : h.payee ≠ []) {e : Str} (he : PayeeEnd e) (n : Nat)
    (hl : PlainLine (encode (h.front ++ (e ++ List.replicate n ' '))))
    (hn : e ≠ [' ', ' '] → n ≠ 0)
    (hl' : PlainLine (encode (h.front ++ ([' ', ' ', ';'] ++ List.replicate (if e = [' ', ' '] then n else n - 1) ' ')))) :
    parse fs H maxOpen (a ++ (encode (h.front ++ (e ++ List.replicate n ' ')) ++ 10 :: b)) path s =
      parse fs H maxOpen (a ++ (encode (h.front ++ ([' ', ' ', ';'] ++ List.replicate (if e = [' ', ' '] then n else n - 1) ' ')) ++ 10 :: b)) path s := by
  have hf : FieldText h.payee := hh.2.2.2.2.2.2.2.1
  refine parse_line_congr fs H maxOpen path s a b ha hl hl' ?_
  have h1 : lineItems path (h.front ++ (e ++ List.replicate n ' ')) = _ := header_front path hh hp _
  have h2 : lineItems path (h.front ++ ([' ', ' ', ';'] ++ List.replicate (if e = [' ', ' '] then n else n - 1) ' ')) = _ := header_front path hh hp _
  rw [h1, h2]
  obtain ⟨j, hj, hk⟩ : ∃ j, (if e = [' ', ' '] then n else n - 1) = j ∧ field (h.payee ++ (e ++ List.replicate n ' ')) = (h.payee, List.replicate (j + 1) ' ') := by
    refine ⟨_, rfl, ?_⟩
    rcases he with rfl | ⟨c, hc, rfl | rfl⟩
    · exact field_blanks hf _
    · have hne : [c] ≠ [' ', ' '] := by simp
      rw [if_neg hne, Nat.sub_add_cancel (Nat.pos_of_ne_zero (hn hne))]
      exact field_stop hf hc _
    · have hne : [' ', c] ≠ [' ', ' '] := by rcases hc with rfl | rfl | rfl <;> decide
      rw [if_neg hne, Nat.sub_add_cancel (Nat.pos_of_ne_zero (hn hne))]
      exact field_blank_stop hf hc _
  have hk2 : field (h.payee ++ ([' ', ' ', ';'] ++ List.replicate j ' ')) = (h.payee, List.replicate 1 ' ' ++ ';' :: List.replicate j ' ') := field_blanks hf _
  simp only [payeeItems, hj]
  rw [hk, hk2]
  simp only
  rw [trimSpaceStart_all (w := List.replicate (j + 1) ' ') (fun c hc => List.eq_of_mem_replicate hc), trimSpaceStart_blanks (by simp) (by simp),
    if_neg (by simp), if_neg (by simp)]
  rfl

/-- Such lines: "x;  ", "x  ", "x ;a  " and "x   b" leave the notes of one blank, of none, of two and of none. -/
example : letI := asciiUnicode
    let note (l : String) := (delivered noFiles 1 (utf8 (l ++ "\n  A  1\n  B\n")) (str "f")).map fun c => (c.transaction.payee, c.transaction.headerNote)
    note "2020-01-01 x;  " = [(str "x", str " ")] ∧ note "2020-01-01 x  " = [(str "x", [])] ∧ note "2020-01-01 x ;a  " = [(str "x", str "  ")] ∧
    note "2020-01-01 x   b" = [(str "x", [])] ∧ note "2020-01-01 x  ;  " = [(str "x", str "  ")] := by
  decide +kernel

/-- If nothing follows what ends the payee, there is no note. With `C23_lost_character_partial`, `C23_blanks_after_lost_partial` and
`C23_blanks_only_partial` this describes all lines with a payee. -/
theorem C23_nothing_lost_partial [Unicode] (fs : FileSystem) (H : Handlers σ) (maxOpen : Nat) (path : Str) (s : PState σ) (a b : List UInt8)
    (ha : WholeLines a) {h : Header} (hh : { h with note := none }.Ok) (hp : h.payee ≠ [])
    {e : Str} (he : e = [' '] ∨ PayeeEnd e ∧ e ≠ [' ', ' '])
    (hl : PlainLine (encode (h.front ++ e))) (hl' : PlainLine (encode { h with note := none }.line)) :
    parse fs H maxOpen (a ++ (encode (h.front ++ e) ++ 10 :: b)) path s =
      parse fs H maxOpen (a ++ (encode { h with note := none }.line ++ 10 :: b)) path s := by
  have hf : FieldText h.payee := hh.2.2.2.2.2.2.2.1
  refine parse_line_congr fs H maxOpen path s a b ha hl hl' ?_
  rw [header_items path hh]
  have this : lineItems path (h.front ++ e) = _ := header_front path hh hp e
  rw [this]
  have hk : field (h.payee ++ e) = (h.payee, []) := by
    rcases he with rfl | ⟨rfl | ⟨c, hc, rfl | rfl⟩, hne⟩
    · exact field_end_blank hf
    · exact absurd rfl hne
    · exact field_stop hf hc []
    · exact field_blank_stop hf hc []
  simp only [payeeItems]
  rw [hk]
  rfl

/-- "x ; note" is read as "x  ; ote", and "x  rent" as "x  ; ent". -/
example : letI := asciiUnicode
    let h : Header := { date := str "2020-01-01", day := ⟨2020, 1, 1⟩, payee := str "x" }
    PayeeEnd (str " ;") ∧ PayeeEnd (str "  ") ∧
    { h with note := some ([' ', ' '], { blanks := 0, text := str "ote" }) }.Ok ∧
    h.front ++ (str " ;" ++ (List.replicate 1 ' ' ++ 'n' :: (List.replicate 0 ' ' ++ str "ote"))) = str "2020-01-01 x ; note" ∧
    h.front ++ (str "  " ++ (List.replicate 0 ' ' ++ 'r' :: (List.replicate 0 ' ' ++ str "ent"))) = str "2020-01-01 x  rent" := by
  refine ⟨Or.inr ⟨';', by decide, Or.inr rfl⟩, Or.inl rfl, by decide, by decide, by decide⟩

end Gledger
