/-
C137: slips in amounts. What double entry is for: in an entry with all amounts written out, one wrong amount is noticed.
-/
import Verif.Props.Mistakes

namespace Gledger

/-- Written without needless zeros in front. -/
def Numeral.Bare (n : Numeral) : Prop := n.whole.length = 1 ∨ n.whole.head? ≠ some '0'

instance (n : Numeral) : Decidable n.Bare := by unfold Numeral.Bare; infer_instance

/-- Slips in writing a number. -/
inductive Numeral.Slip : Numeral → Numeral → Prop
  /-- digits are wrong, or have changed places; there are as many of them -/
  | digits {n n' : Numeral} : n'.sign = n.sign → n'.whole.length = n.whole.length → n'.fraction.map List.length = n.fraction.map List.length → n' ≠ n → Slip n n'
  /-- digits before the point are left out, added or wrong -/
  | whole {n n' : Numeral} : n'.sign = n.sign → n'.Bare → n.Bare → n'.whole ≠ n.whole → n'.fraction.map List.length = n.fraction.map List.length → Slip n n'
  /-- the minus sign is missing -/
  | unsigned {n : Numeral} {s : Sign} : n.sign = .minus → s ≠ .minus → n.hundredths ≠ 0 → Slip n { n with sign := s }
  /-- there is one too many -/
  | signed {n : Numeral} : n.sign ≠ .minus → n.hundredths ≠ 0 → Slip n { n with sign := .minus }

/-- Slips in writing an entry. -/
inductive Entry.Slip [Unicode] (e : Entry) : Entry → Prop
  /-- in one number -/
  | number {ps p qs a a'} {n n' : Numeral} : e.postings = ps ++ p :: qs → p.amount = some a → a.number = n.text → n.Ok → n.Money →
      a.quantity.toInt = n.hundredths → n'.Ok → n'.Money → Int64Range n'.hundredths → n.Slip n' →
      a' = { a with number := n'.text, quantity := BitVec.ofInt 64 n'.hundredths } → a'.Shape →
      Slip e { e with postings := ps ++ { p with amount := some a' } :: qs }
  /-- a posting is left out -/
  | lost {ps p qs} : e.postings = ps ++ p :: qs → p.meaning.value ≠ 0 → Slip e { e with postings := ps ++ qs }
  /-- a posting is written twice -/
  | twice {ps p qs} : e.postings = ps ++ p :: qs → p.meaning.value ≠ 0 → Slip e { e with postings := ps ++ p :: p :: qs }

theorem digit_inj {c d : Char} (hc : Digit c) (hd : Digit d) (h : c.toNat - '0'.toNat = d.toNat - '0'.toNat) : c = d := by
  have h1 := hc.1
  have h2 := hd.1
  apply Char.ext
  apply UInt32.toNat_inj.1
  show c.toNat = d.toNat
  omega

/-- Digits written in the same number of places are the same if their values are. -/
theorem decimalValue_inj : ∀ {s t : Str}, (∀ c ∈ s, Digit c) → (∀ c ∈ t, Digit c) → s.length = t.length → decimalValue s = decimalValue t → s = t
  | [], [], _, _, _, _ => rfl
  | [], _ :: _, _, _, h, _ => by cases h
  | _ :: _, [], _, _, h, _ => by cases h
  | c :: s, d :: t, hs, ht, hl, h => by
    have hl : s.length = t.length := by simpa using hl
    rw [show c :: s = [c] ++ s from rfl, show d :: t = [d] ++ t from rfl, decimalValue_append, decimalValue_append, decimalValue_singleton, decimalValue_singleton, hl] at h
    have b1 := decimalValue_lt (s := s) fun x hx => hs x (List.mem_cons_of_mem _ hx)
    have b2 := decimalValue_lt (s := t) fun x hx => ht x (List.mem_cons_of_mem _ hx)
    rw [hl] at b1
    have hp : 0 < 10 ^ t.length := by positivity
    have e1 : c.toNat - '0'.toNat = d.toNat - '0'.toNat := by
      have := congrArg (· / 10 ^ t.length) h
      simpa [Nat.add_div_of_dvd_right, Nat.mul_add_div, mul_comm _ (10 ^ t.length), Nat.mul_add_div hp, Nat.div_eq_of_lt b1, Nat.div_eq_of_lt b2] using this
    rw [digit_inj (hs c (by simp)) (ht d (by simp)) e1,
      decimalValue_inj (fun x hx => hs x (List.mem_cons_of_mem _ hx)) (fun x hx => ht x (List.mem_cons_of_mem _ hx)) hl (by rw [e1] at h; omega)]

/-- More digits, not beginning with zero, are a larger number. -/
theorem decimalValue_longer {s t : Str} (hs : ∀ c ∈ s, Digit c) (ht : ∀ c ∈ t, Digit c) (h : s.length < t.length) (h0 : t.head? ≠ some '0') :
    decimalValue s < decimalValue t := by
  cases t with
  | nil => simp at h
  | cons d t =>
    have b1 := decimalValue_lt hs
    rw [show d :: t = [d] ++ t from rfl, decimalValue_append, decimalValue_singleton]
    have hd := ht d (by simp)
    have hne : d.toNat - '0'.toNat ≠ 0 := fun h => h0 (by
      rw [List.head?_cons, digit_inj hd (show Digit '0' by decide) (by rw [h]; rfl)])
    have hp : 10 ^ s.length ≤ 10 ^ t.length := Nat.pow_le_pow_right (by decide) (by simpa [Nat.lt_succ_iff] using h)
    have : 1 * 10 ^ t.length ≤ (d.toNat - '0'.toNat) * 10 ^ t.length := Nat.mul_le_mul_right _ (by omega)
    omega

theorem decimalValue_bare {n n' : Numeral} (h : n.Ok) (h' : n'.Ok) (l : n.Bare) (l' : n'.Bare) (e : decimalValue n'.whole = decimalValue n.whole) : n'.whole = n.whole := by
  have key : ∀ {a b : Numeral}, a.Ok → b.Ok → b.Bare → a.whole.length < b.whole.length → decimalValue a.whole < decimalValue b.whole := by
    intro a b ha hb lb hlt
    refine decimalValue_longer ha.1.2 hb.1.2 hlt (lb.resolve_left fun h1 => ?_)
    have := List.length_pos_iff.2 ha.1.1
    omega
  rcases Nat.lt_trichotomy n'.whole.length n.whole.length with hl | hl | hl
  · have := key h' h l hl
    omega
  · exact decimalValue_inj h'.1.2 h.1.2 hl e
  · have := key h h' l' hl
    omega

theorem places_digits {n : Numeral} (h : n.Ok) : ∀ c ∈ n.places, Digit c := by
  intro c hc
  unfold Numeral.places at hc
  cases hf : n.fraction with
  | none => rw [hf] at hc; cases hc
  | some f =>
    rw [hf] at hc
    exact (h.2 f hf).2 c hc

theorem places_length {n n' : Numeral} (h : n'.fraction.map List.length = n.fraction.map List.length) : n'.places.length = n.places.length := by
  unfold Numeral.places
  cases hn : n.fraction <;> cases hn' : n'.fraction <;> simp_all

theorem places_small {n : Numeral} (h : n.Ok) (m : n.Money) : decimalValue n.places < 100 := by
  have := decimalValue_lt (places_digits h)
  unfold Numeral.places at this ⊢
  cases hf : n.fraction with
  | none => simp [decimalValue_nil]
  | some f =>
    rw [hf] at this
    rw [show (some f).getD ([] : Str) = f from rfl, m f hf] at this
    exact this

theorem fraction_of_places {n n' : Numeral} (h : n'.fraction.map List.length = n.fraction.map List.length) (e : n'.places = n.places) : n'.fraction = n.fraction := by
  unfold Numeral.places at e
  cases hn : n.fraction <;> cases hn' : n'.fraction <;> simp_all

theorem Sign.apply_inj (s : Sign) {a b : Int} (h : s.apply a = s.apply b) : a = b := by
  cases s <;> simp only [Sign.apply] at h <;> omega

theorem toInt_in_range {v : Int} (h : Int64Range v) : (BitVec.ofInt 64 v).toInt = v := by
  unfold Int64Range at h
  rw [BitVec.toInt_ofInt]
  exact Int.bmod_eq_of_le (by omega) (by omega)

/-- A slip in writing a number always makes it another number. -/
theorem C137_numbers {n n' : Numeral} (hn : n.Ok) (hm : n.Money) (hn' : n'.Ok) (hm' : n'.Money) (h : n.Slip n') : n'.hundredths ≠ n.hundredths := by
  have parts : n'.sign = n.sign → n'.hundredths = n.hundredths → decimalValue n'.whole = decimalValue n.whole ∧ decimalValue n'.places = decimalValue n.places := by
    intro e1 e2
    unfold Numeral.hundredths at e2
    rw [e1] at e2
    have := Sign.apply_inj _ e2
    have := places_small hn hm
    have := places_small hn' hm'
    omega
  cases h with
  | digits h1 h2 h3 h4 =>
    intro e
    obtain ⟨e1, e2⟩ := parts h1 e
    have w := decimalValue_inj hn'.1.2 hn.1.2 h2 e1
    have f := fraction_of_places h3 (decimalValue_inj (places_digits hn') (places_digits hn) (places_length h3) e2)
    apply h4
    cases n
    cases n'
    simp_all
  | whole h1 h2 h3 h4 _ => exact fun e => h4 (decimalValue_bare hn hn' h3 h2 (parts h1 e).1)
  | @unsigned s h1 h2 h3 =>
    have e1 : n.hundredths = -((decimalValue n.whole : Int) * 100 + decimalValue n.places) := by unfold Numeral.hundredths; rw [h1]; rfl
    have e2 : ({ n with sign := s } : Numeral).hundredths = (decimalValue n.whole : Int) * 100 + decimalValue n.places := by
      unfold Numeral.hundredths
      cases s
      · rfl
      · rfl
      · exact absurd rfl h2
    rw [e2, e1]
    rw [e1] at h3
    omega
  | signed h1 h2 =>
    have e1 : n.hundredths = (decimalValue n.whole : Int) * 100 + decimalValue n.places := by
      unfold Numeral.hundredths
      cases hs : n.sign
      · rfl
      · rfl
      · exact absurd hs h1
    have e2 : ({ n with sign := .minus } : Numeral).hundredths = -((decimalValue n.whole : Int) * 100 + decimalValue n.places) := rfl
    rw [e2, e1]
    rw [e1] at h2
    omega

variable [Unicode]

/-- An entry with all amounts written out, and balanced: what such an entry should be. -/
structure Entry.Proper (e : Entry) : Prop where
  spelled : e.Spelled
  some : e.postings ≠ []
  all : ∀ p ∈ e.postings, p.amount ≠ none
  balanced : (e.body.map Posting.value).sum = 0

/-- An entry with a slip can still be read, has all amounts, and does not balance. -/
theorem C137_unbalanced {e e' : Entry} (h : e.Proper) (s : e.Slip e') :
    e'.Spelled ∧ (∀ p ∈ e'.postings, p.amount ≠ none) ∧ (e'.body.map Posting.value).sum ≠ 0 := by
  obtain ⟨⟨h1, h2, h3⟩, _, h4, h5⟩ := h
  unfold Entry.body at h5 ⊢
  cases s with
  | @number ps p qs a a' n n' g1 g2 g3 g4 g5 g6 g7 g8 g9 g10 g11 g12 =>
    rw [g1] at h3 h4 h5
    refine ⟨⟨h1, h2, ?_⟩, ?_, ?_⟩
    · intro x hx
      rcases List.mem_append.1 hx with hx | hx
      · exact h3 x (by simp [hx])
      rcases List.mem_cons.1 hx with rfl | hx
      · obtain ⟨k1, k2, _, k4⟩ := h3 p (by simp)
        refine ⟨k1, k2, ?_, k4⟩
        rintro _ ⟨⟩
        refine ⟨g12, n', by rw [g11], g7, g8, g9, ?_⟩
        rw [g11]
        exact toInt_in_range g9
      · exact h3 x (by simp [hx])
    · intro x hx
      rcases List.mem_append.1 hx with hx | hx
      · exact h4 x (by simp [hx])
      rcases List.mem_cons.1 hx with rfl | hx
      · simp
      · exact h4 x (by simp [hx])
    · have hv : p.meaning.value = a.quantity := by simp [Posting.value, WrittenPosting.meaning, g2, WrittenAmount.meaning]
      have hv' : ({ p with amount := some a' } : WrittenPosting).meaning.value = a'.quantity := by
        simp [Posting.value, WrittenPosting.meaning, WrittenAmount.meaning]
      simp only [List.map_append, List.map_cons, List.sum_append, List.sum_cons, hv, hv'] at h5 ⊢
      intro h6
      have h7 : a'.quantity = a.quantity := by
        have := h6.trans h5.symm
        simpa using this
      refine C137_numbers g4 g5 g7 g8 g10 ?_
      rw [← g6, ← h7, g11]
      exact (toInt_in_range g9).symm
  | @lost ps p qs g1 g2 =>
    rw [g1] at h3 h4 h5
    refine ⟨⟨h1, h2, fun x hx => h3 x ?_⟩, fun x hx => h4 x ?_, ?_⟩
    · rcases List.mem_append.1 hx with hx | hx <;> simp [hx]
    · rcases List.mem_append.1 hx with hx | hx <;> simp [hx]
    · simp only [List.map_append, List.map_cons, List.sum_append, List.sum_cons] at h5 ⊢
      intro h6
      apply g2
      have := h5.trans h6.symm
      simpa using this
  | @twice ps p qs g1 g2 =>
    rw [g1] at h3 h4 h5
    refine ⟨⟨h1, h2, fun x hx => h3 x ?_⟩, fun x hx => h4 x ?_, ?_⟩
    · rcases List.mem_append.1 hx with hx | hx
      · simp [hx]
      · rcases List.mem_cons.1 hx with hx | hx
        · simp [hx]
        · exact List.mem_append_right _ hx
    · rcases List.mem_append.1 hx with hx | hx
      · simp [hx]
      · rcases List.mem_cons.1 hx with hx | hx
        · simp [hx]
        · exact List.mem_append_right _ hx
    · simp only [List.map_append, List.map_cons, List.sum_append, List.sum_cons] at h5 ⊢
      intro h6
      apply g2
      have := h6.trans h5.symm
      simpa using this

variable {m : Machine} {o : Options} {args : List Str} {js : List (Meant × Str)} {filters : List Filter} {admits : Date → Bool} {path : Str}

/-- Without the slip, the entry is a transaction like any other. -/
theorem C137_without {e : Entry} (h : e.Proper) : (Paragraph.entry e).Means (.transaction (e.heading.complete e.body)) :=
  ⟨h.spelled.1, h.spelled.2.1, h.spelled.2.2, ⟨by simpa [Entry.body] using h.some, by
    rw [List.filter_eq_nil_iff.2]
    · exact Nat.zero_le _
    intro p hp
    obtain ⟨q, hq, rfl⟩ := List.mem_map.1 hp
    have := h.all q hq
    simpa [WrittenPosting.meaning] using this, fun _ => h.balanced⟩, rfl⟩

/-- With it, whatever comes before and after, every command reports an error, naming the line after the entry if there is one; nothing else is printed (but warnings about what comes
before). -/
theorem C137_reported {a r : List UInt8} {e e' : Entry} {line : Option Nat} {label : Str} (g : Setting m o args (a ++ (textOf [10] (e'.lines.map encode) ++ r)) filters admits path)
    (hr : Reads m.fs path m.maxOpen path path a js label) (h : e.Proper) (s : e.Slip e') (hfit : Fits e'.lines)
    (hend : EntryEnd r line (a.count 10 + e'.lines.length + 1)) {c : Command} (hc : c ≠ .version) (hs : ¬ c.Short filters admits (meanings js)) :
    ∃ w, c.Warned filters admits (meanings js) w ∧
      m.run o c args = ⟨w ++ (str "error at " ++ ((line.map fun n => path ++ str ":" ++ natDigits n ++ str "\n").getD [] ++ str "transaction does not balance")) ++ str "\n", .exit 0⟩ := by
  obtain ⟨h1, h2, h3⟩ := C137_unbalanced h s
  obtain ⟨w, w1, w2⟩ := (C98_reported ⟨g, .here hr (.unbalanced h1 hfit hend h2 h3)⟩ hc).2 hs
  refine ⟨w, w1, ?_⟩
  obtain ⟨msg, rfl, e⟩ := w2
  rw [e]
  cases line <;> rfl

/-! An entry, and slips in it: digits that have changed places, a digit too many, a sign left out, a posting left out, and one written twice. -/

def slipsEntry : Entry :=
  { header := { date := str "2020-03-01", day := ⟨2020, 3, 1⟩, payee := str "x" },
    postings := [{ account := str "A", amount := some { number := str "12.50", quantity := 1250 } },
                 { account := str "B", amount := some { number := str "-10", quantity := -1000 } },
                 { account := str "C", amount := some { number := str "-2.50", quantity := -250 } }] }

omit [Unicode] in
theorem slipsHeader : letI := asciiUnicode; slipsEntry.header.Spelled := by
  let := asciiUnicode
  exact ⟨⟨'-', by decide, str "2020", str "03", str "01", 2020, by decide, by decide, by decide, by decide, by decide⟩, by decide,
      by decide, by decide, by decide, by decide, by decide, by decide, by decide⟩

/-- For concrete postings. -/
theorem spelled_by {p : WrittenPosting} (a : WrittenAmount) (n : Numeral) (h : p.amount = some a)
    (g : Indent p.indent ∧ AccountText p.account ∧ (∀ x ∈ p.notes, x.Ok) ∧ a.Shape ∧ a.number = n.text ∧ n.Ok ∧ n.Money ∧ Int64Range n.hundredths ∧
      a.quantity.toInt = n.hundredths) : p.Spelled := by
  obtain ⟨g1, g2, g3, g4, g5, g6, g7, g8, g9⟩ := g
  refine ⟨g1, g2, fun x hx => ?_, g3⟩
  rw [h] at hx
  obtain rfl : a = x := Option.some.inj hx
  exact ⟨g4, n, g5, g6, g7, g8, g9⟩

omit [Unicode] in
theorem slipsPostings : letI := asciiUnicode; ∀ p ∈ slipsEntry.postings, p.Spelled := by
  let := asciiUnicode
  unfold slipsEntry
  simp only [List.forall_mem_cons]
  exact ⟨spelled_by _ { whole := str "12", fraction := some (str "50") } rfl (by decide +kernel), spelled_by _ { sign := .minus, whole := str "10" } rfl (by decide +kernel),
    spelled_by _ { sign := .minus, whole := str "2", fraction := some (str "50") } rfl (by decide +kernel), by simp⟩

omit [Unicode] in
theorem slipsProper : letI := asciiUnicode; slipsEntry.Proper := by
  let := asciiUnicode
  exact ⟨⟨slipsHeader, by decide, slipsPostings⟩, by decide, by decide, by decide +kernel⟩

omit [Unicode] in
example :
    letI := asciiUnicode
    let slip := fun (t : String) => ∃ e', slipsEntry.Slip e' ∧ textOf [10] (e'.lines.map encode) = utf8 t ∧ Fits e'.lines
    slip "2020-03-01 x\n  A  21.50\n  B  -10\n  C  -2.50\n" ∧
    slip "2020-03-01 x\n  A  12.50\n  B  -100\n  C  -2.50\n" ∧
    slip "2020-03-01 x\n  A  12.50\n  B  10\n  C  -2.50\n" ∧
    slip "2020-03-01 x\n  A  12.50\n  C  -2.50\n" ∧
    slip "2020-03-01 x\n  A  12.50\n  B  -10\n  C  -2.50\n  C  -2.50\n" := by
  let := asciiUnicode
  refine ⟨⟨_, .number (ps := []) rfl rfl (n := { whole := str "12", fraction := some (str "50") }) (n' := { whole := str "21", fraction := some (str "50") })
      (by decide) (by decide) (by decide) (by decide) (by decide) (by decide) (by decide) (.digits rfl rfl rfl (by decide)) rfl (by decide), by decide +kernel, by decide +kernel⟩,
    ⟨_, .number (ps := slipsEntry.postings.take 1) rfl rfl (n := { sign := .minus, whole := str "10" }) (n' := { sign := .minus, whole := str "100" })
      (by decide) (by decide) (by decide) (by decide) (by decide) (by decide) (by decide) (.whole rfl (by decide) (by decide) (by decide) rfl) rfl (by decide), by decide +kernel, by decide +kernel⟩,
    ⟨_, .number (ps := slipsEntry.postings.take 1) rfl rfl (n := { sign := .minus, whole := str "10" }) (n' := { sign := .absent, whole := str "10" })
      (by decide) (by decide) (by decide) (by decide) (by decide) (by decide) (by decide) (.unsigned (s := .absent) rfl (by decide) (by decide)) rfl (by decide), by decide +kernel, by decide +kernel⟩,
    ⟨_, .lost (ps := slipsEntry.postings.take 1) rfl (by decide), by decide +kernel, by decide +kernel⟩,
    ⟨_, .twice (ps := slipsEntry.postings.take 2) rfl (by decide), by decide +kernel, by decide +kernel⟩⟩

set_option maxRecDepth 100000

omit [Unicode] in
/-- What is printed; and what is not noticed: any amount if one is left out, and two slips that cancel. -/
theorem C137_unnoticed_false :
    letI := asciiUnicode
    let ask := fun (t : String) => (machineWith (str "f") t).run { file := str "f" } .balance []
    ask "2020-03-01 x\n  A  21.50\n  B  -10\n  C  -2.50\n\n2020-03-02 y\n  A  1\n  B\n" = ⟨str "error at f:5\ntransaction does not balance\n", .exit 0⟩ ∧
    (ask "2020-03-01 x\n  A  21.50\n  B  -10\n  C\n").stdout =
      str "               21.50  A\n              -10.00  B\n              -11.50  C\n--------------------\n                0.00\n" ∧
    (ask "2020-03-01 x\n  A  21.50\n  B  -19\n  C  -2.50\n").stdout =
      str "               21.50  A\n              -19.00  B\n               -2.50  C\n--------------------\n                0.00\n" := by
  decide +kernel

end Gledger
