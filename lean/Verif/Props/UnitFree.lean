/-
C144: statistics do not depend on the unit in which amounts are written.
-/
import Verif.Props.Later
import Verif.Props.Scale
import Verif.Spec.Exact

namespace Gledger

/-- So many times the amount. -/
def Posting.times (c : I64) (p : Posting) : Posting := { p with amount := p.amount.map (Amount.times c) }

/-- The same transaction with all amounts so many times as large. -/
def timesBy (c : I64) (tf : Transaction × Str) : Transaction × Str := ({ tf.1 with postings := tf.1.postings.map (Posting.times c) }, tf.2)

theorem toInt_times {k : Nat} {v : I64} (h : k * v.toInt.natAbs < 2 ^ 63) : (BitVec.ofNat 64 k * v).toInt = k * v.toInt := by
  rw [BitVec.toInt_mul, BitVec.toInt_ofNat', Int.bmod_mul_bmod]
  have : ((k : Int) * v.toInt).natAbs < 2 ^ 63 := by rwa [Int.natAbs_mul, Int.natAbs_natCast]
  rw [Int.bmod_def]
  generalize (k : Int) * v.toInt = x at *
  norm_num at *
  split <;> omega

theorem natAbs_add (a b : I64) : (a + b).toInt.natAbs ≤ a.toInt.natAbs + b.toInt.natAbs := by
  rw [BitVec.toInt_add, Int.bmod_def]
  generalize a.toInt = x
  generalize b.toInt = y
  norm_num
  split <;> omega

theorem natAbs_neg (a : I64) : (- a).toInt.natAbs ≤ a.toInt.natAbs := by
  rw [BitVec.toInt_neg, Int.bmod_def]
  generalize a.toInt = x
  norm_num
  split <;> omega

theorem natAbs_sub (a b : I64) : (a - b).toInt.natAbs ≤ a.toInt.natAbs + b.toInt.natAbs := by
  rw [BitVec.sub_eq_add_neg]
  exact (natAbs_add _ _).trans (Nat.add_le_add_left (natAbs_neg _) _)

theorem natAbs_value (ps : List Posting) : (valueOf ps).toInt.natAbs ≤ turnover ps := by
  have e : ∀ p : Posting, p.hundredths = p.value.toInt := fun p => by unfold Posting.hundredths Posting.value; cases p.amount <;> rfl
  unfold valueOf turnover
  simp only [e]
  induction ps with
  | nil => simp
  | cons p ps ih =>
    rw [List.map_cons, List.map_cons, List.sum_cons, List.sum_cons]
    exact (natAbs_add _ _).trans (Nat.add_le_add_left ih _)

theorem selection_times (c : I64) (fs : List Filter) (t : Transaction × Str) : selection fs (timesBy c t).1 = (selection fs t.1).map (Posting.times c) := by
  unfold selection
  have e : WholeSelected fs (timesBy c t).1 ↔ WholeSelected fs t.1 := Iff.rfl
  by_cases h : WholeSelected fs t.1
  · rw [if_pos h, if_pos (e.2 h)]
    rfl
  · rw [if_neg h, if_neg (mt e.1 h)]
    show (t.1.postings.map (Posting.times c)).filter _ = _
    rw [List.filter_map]
    rfl

theorem valueOf_times (c : I64) (ps : List Posting) : valueOf (ps.map (Posting.times c)) = c * valueOf ps := by
  unfold valueOf
  induction ps with
  | nil => simp
  | cons p ps ih =>
    have hv : (p.times c).value = c * p.value := by
      unfold Posting.value Posting.times
      cases p.amount <;> simp [Amount.times]
    rw [List.map_cons, List.map_cons, List.map_cons, List.sum_cons, List.sum_cons, ih, hv, BitVec.mul_add]

/-! ### The matching of incomes and expenses -/

/-- What is in the buckets of these days, regardless of signs. -/
def Buckets.load (b : Buckets) (K : List Date) : Nat := (K.map fun d => (b.get d).toInt.natAbs).sum

theorem load_away {b : Buckets} {d : Date} {v : I64} {K : List Date} (h : d ∉ K) : (b.put d v).load K = b.load K := by
  unfold Buckets.load
  congr 1
  refine List.map_congr_left fun x hx => ?_
  rw [Buckets.get_put, if_neg fun e : x = d => h (e ▸ hx)]

theorem load_put {b : Buckets} {d : Date} {v : I64} {K : List Date} (hn : K.Nodup) (h : d ∈ K) :
    (b.put d v).load K + (b.get d).toInt.natAbs = b.load K + v.toInt.natAbs := by
  induction K with
  | nil => cases h
  | cons x K ih =>
    obtain ⟨n1, n2⟩ := List.nodup_cons.1 hn
    have hc : ∀ b : Buckets, b.load (x :: K) = (b.get x).toInt.natAbs + b.load K := fun b => by simp [Buckets.load]
    rw [hc, hc]
    by_cases hx : x = d
    · subst hx
      rw [load_away n1, Buckets.get_put, if_pos rfl]
      omega
    · have := ih n2 ((List.mem_cons.1 h).resolve_left (Ne.symm hx))
      rw [Buckets.get_put, if_neg hx]
      omega

theorem load_get {b : Buckets} {d : Date} {K : List Date} (h : d ∈ K) : (b.get d).toInt.natAbs ≤ b.load K := by
  unfold Buckets.load
  exact List.le_sum_of_mem (List.mem_map.2 ⟨d, h, rfl⟩)

section
variable {k : Nat} {K : List Date}

theorem ageInner_times (hk : 0 < k) (hn : K.Nodup) (ek : Date) : ∀ (iks : List Date), (∀ d ∈ iks, d ∈ K) → ∀ (x : I64) (b b' : Buckets) (ages : List (Date × Date)),
    (∀ d ∈ K, b'.get d = BitVec.ofNat 64 k * b.get d) → k * (x.toInt.natAbs + b.load K) < 2 ^ 63 →
    (ageInner ek iks (BitVec.ofNat 64 k * x) b' ages).2 = (ageInner ek iks x b ages).2 ∧
      (∀ d ∈ K, (ageInner ek iks (BitVec.ofNat 64 k * x) b' ages).1.get d = BitVec.ofNat 64 k * (ageInner ek iks x b ages).1.get d) ∧
      (ageInner ek iks x b ages).1.load K ≤ x.toInt.natAbs + b.load K
  | [], _, _, _, _, _, hb, _ => ⟨rfl, hb, Nat.le_add_left _ _⟩
  | ik :: iks, hi, x, b, b', ages, hb, hl => by
    have hik := hi ik (by simp)
    have hi' : ∀ d ∈ iks, d ∈ K := fun d hd => hi d (List.mem_cons_of_mem _ hd)
    have hput : ∀ v, ∀ d ∈ K, (b'.put ik (BitVec.ofNat 64 k * v)).get d = BitVec.ofNat 64 k * (b.put ik v).get d := by
      intro v d hd
      rw [Buckets.get_put, Buckets.get_put]
      by_cases h : d = ik
      · rw [if_pos h, if_pos h]
      · rw [if_neg h, if_neg h, hb d hd]
    have l1 := load_get (b := b) hik
    have t1 : (BitVec.ofNat 64 k * b.get ik).toInt = k * (b.get ik).toInt :=
      toInt_times (lt_of_le_of_lt (Nat.mul_le_mul_left k (l1.trans (Nat.le_add_left _ _))) hl)
    have t2 : (BitVec.ofNat 64 k * x).toInt = k * x.toInt := toInt_times (lt_of_le_of_lt (Nat.mul_le_mul_left k (Nat.le_add_right _ _)) hl)
    have hk' : (0 : Int) < k := by exact_mod_cast hk
    have z : BitVec.ofNat 64 k * b.get ik = 0 ↔ b.get ik = 0 := by
      rw [← BitVec.toInt_inj, ← BitVec.toInt_inj, t1]
      simp [hk.ne']
    have lt : (k : Int) * (b.get ik).toInt < k * x.toInt ↔ (b.get ik).toInt < x.toInt := Int.mul_lt_mul_left hk'
    have sub : ∀ a b : I64, BitVec.ofNat 64 k * a - BitVec.ofNat 64 k * b = BitVec.ofNat 64 k * (a - b) := fun a b => by
      rw [BitVec.sub_eq_add_neg, BitVec.sub_eq_add_neg, BitVec.mul_add, BitVec.mul_neg]
    simp only [ageInner, hb ik hik, z, t1, t2, lt, sub]
    by_cases h0 : b.get ik = 0
    · rw [if_pos h0, if_pos h0]
      exact ageInner_times hk hn ek iks hi' x b b' ages hb hl
    · rw [if_neg h0, if_neg h0]
      by_cases h1 : (b.get ik).toInt < x.toInt
      · rw [if_pos h1, if_pos h1]
        have p0 := load_put (b := b) (v := 0) hn hik
        have p1 := natAbs_sub x (b.get ik)
        have p2 : ((0 : I64).toInt).natAbs = 0 := rfl
        have hle : (x - b.get ik).toInt.natAbs + (b.put ik 0).load K ≤ x.toInt.natAbs + b.load K := by omega
        have hz : ∀ d ∈ K, (b'.put ik 0).get d = BitVec.ofNat 64 k * (b.put ik 0).get d := by
          have := hput 0
          rwa [show BitVec.ofNat 64 k * (0 : I64) = 0 from BitVec.mul_zero] at this
        obtain ⟨q1, q2, q3⟩ := ageInner_times hk hn ek iks hi' (x - b.get ik) (b.put ik 0) (b'.put ik 0) (ages ++ [(ek, ik)]) hz
          (lt_of_le_of_lt (Nat.mul_le_mul_left k hle) hl)
        exact ⟨q1, q2, q3.trans hle⟩
      · rw [if_neg h1, if_neg h1]
        refine ⟨rfl, hput _, ?_⟩
        have p0 := load_put (b := b) (v := b.get ik - x) hn hik
        have p1 := natAbs_sub (b.get ik) x
        dsimp only
        omega

theorem ageOuter_times (hk : 0 < k) (hn : K.Nodup) {x x' : Buckets} : ∀ (eks : List Date), (∀ d ∈ eks, x'.get d = BitVec.ofNat 64 k * x.get d) →
    ∀ (b b' : Buckets) (ages : List (Date × Date)), (∀ d ∈ K, b'.get d = BitVec.ofNat 64 k * b.get d) → k * (x.load eks + b.load K) < 2 ^ 63 →
    (ageOuter x' K eks b' ages).2 = (ageOuter x K eks b ages).2
  | [], _, _, _, _, _, _ => rfl
  | ek :: eks, hx, b, b', ages, hb, hl => by
    have hc : x.load (ek :: eks) = (x.get ek).toInt.natAbs + x.load eks := by simp [Buckets.load]
    rw [hc] at hl
    simp only [ageOuter]
    rw [hx ek (by simp)]
    obtain ⟨q1, q2, q3⟩ := ageInner_times hk hn ek K (fun _ h => h) (x.get ek) b b' ages hb
      (lt_of_le_of_lt (Nat.mul_le_mul_left k (by omega)) hl)
    rw [q1]
    exact ageOuter_times hk hn eks (fun d hd => hx d (List.mem_cons_of_mem _ hd)) _ _ _ q2 (lt_of_le_of_lt (Nat.mul_le_mul_left k (by omega)) hl)

end

/-! ### Statistics -/

section
variable {fs : List Filter} {ts ts' : List (Transaction × Str)}

theorem dayPostings_times {c : I64} (hp : ts'.Perm (ts.map (timesBy c))) (top : Str) (d : Date) :
    (dayPostings fs top ts' d).Perm ((dayPostings fs top ts d).map (Posting.times c)) := by
  unfold dayPostings
  refine ((hp.filter _).flatMap_right _).trans ?_
  rw [List.filter_map, List.flatMap_map, List.map_flatMap]
  have e : ts.filter ((fun tf : Transaction × Str => decide (tf.1.date = d)) ∘ timesBy c) = ts.filter fun tf => tf.1.date = d := rfl
  rw [e]
  refine List.Perm.of_eq (flatMap_congr_mem fun tf _ => ?_)
  rw [selection_times, List.filter_map]
  rfl

/-- The days together. -/
theorem days_turnover (top : Str) {K : List Date} (hn : K.Nodup) :
    (K.map fun d => turnover (dayPostings fs top ts d)).sum ≤ turnover ((ts.flatMap fun tf => selection fs tf.1).filter fun p => p.components.head? = some top) := by
  induction ts with
  | nil => simp [dayPostings, turnover]
  | cons tf ts ih =>
    have e : ∀ d, turnover (dayPostings fs top (tf :: ts) d) =
        (if tf.1.date = d then turnover ((selection fs tf.1).filter fun p => p.components.head? = some top) else 0) + turnover (dayPostings fs top ts d) := fun d => by
      unfold dayPostings
      rw [List.filter_cons]
      by_cases h : tf.1.date = d
      · simp [h, turnover]
      · simp [h]
    have e2 : ∀ (v : Nat) (K : List Date), K.Nodup → (K.map fun d => if tf.1.date = d then v else 0).sum ≤ v := by
      intro v K hn
      induction K with
      | nil => simp
      | cons x K ihK =>
        obtain ⟨n1, n2⟩ := List.nodup_cons.1 hn
        rw [List.map_cons, List.sum_cons]
        by_cases h : tf.1.date = x
        · have : (K.map fun d => if tf.1.date = d then v else 0) = K.map fun _ => 0 :=
            List.map_congr_left fun y hy => if_neg fun e => n1 (by rw [← h, e]; exact hy)
          rw [this, if_pos h]
          simp
        · rw [if_neg h]
          have := ihK n2
          omega
    have e3 : (K.map fun d => turnover (dayPostings fs top (tf :: ts) d)).sum =
        (K.map fun d => if tf.1.date = d then turnover ((selection fs tf.1).filter fun p => p.components.head? = some top) else 0).sum +
        (K.map fun d => turnover (dayPostings fs top ts d)).sum := by
      rw [← List.sum_map_add]
      simp only [e]
    have e4 : turnover (((tf :: ts).flatMap fun tf => selection fs tf.1).filter fun p => p.components.head? = some top) =
        turnover ((selection fs tf.1).filter fun p => p.components.head? = some top) +
        turnover ((ts.flatMap fun tf => selection fs tf.1).filter fun p => p.components.head? = some top) := by
      rw [List.flatMap_cons, List.filter_append]
      simp [turnover]
    rw [e3, e4]
    exact Nat.add_le_add (e2 _ K hn) ih

theorem turnover_two {a b : Str} (h : a ≠ b) (ps : List Posting) :
    turnover (ps.filter fun p => p.components.head? = some a) + turnover (ps.filter fun p => p.components.head? = some b) ≤ turnover ps := by
  induction ps with
  | nil => simp [turnover]
  | cons p ps ih =>
    have hc : ∀ (p : Posting) ps, turnover (p :: ps) = p.hundredths.natAbs + turnover ps := fun p ps => by simp [turnover]
    rw [List.filter_cons, List.filter_cons]
    by_cases h1 : p.components.head? = some a
    · simp only [h1, decide_true, if_true, hc]
      simp only [show ¬ (some a = some b) from fun e => h (Option.some.inj e), decide_false, Bool.false_eq_true, if_false]
      omega
    · by_cases h2 : p.components.head? = some b
      · simp only [h2, decide_true, if_true, hc]
        simp only [show ¬ (some b = some a) from fun e => h (Option.some.inj e).symm, decide_false, Bool.false_eq_true, if_false]
        omega
      · simp only [h1, h2, decide_false, Bool.false_eq_true, if_false, hc]
        omega

/-- The age of money is the same to the nanosecond if all amounts are multiplied by the same positive number and everything together still fits in 64 bits. -/
theorem C144_age {k : Nat} (hk : 0 < k) (hr : ∀ tf ∈ ts, tf.1.date.Real) (hp : ts'.Perm (ts.map (timesBy (BitVec.ofNat 64 k))))
    (hl : k * turnover (ts.flatMap fun tf => selection fs tf.1) < 2 ^ 63) {sort sort' : List Date → List Date} (h1 : SortsDates sort)
    (h1' : SortsDates sort') {s s' : Stats} (h : StatsOf fs ts s) (h' : StatsOf fs ts' s') : s'.ages sort' = s.ages sort := by
  have hr' : ∀ tf ∈ ts', tf.1.date.Real := by
    intro tf htf
    obtain ⟨u, hu, rfl⟩ := List.mem_map.1 (hp.mem_iff.1 htf)
    exact hr u hu
  have hnil : ∀ top d, dayPostings fs top ts' d ≠ [] ↔ dayPostings fs top ts d ≠ [] := fun top d => by
    have := (dayPostings_times (fs := fs) hp top d).length_eq
    rw [List.length_map] at this
    rw [ne_eq, ne_eq, ← List.length_eq_zero_iff, this, List.length_eq_zero_iff]
  obtain ⟨i1, i2⟩ := keys_sorted h1 h.income.2.1 fun d hd => day_real hr ((h.income.2.2 d).1 hd)
  obtain ⟨i1', i2'⟩ := keys_sorted h1' h'.income.2.1 fun d hd => day_real hr' ((h'.income.2.2 d).1 hd)
  obtain ⟨x1, x2⟩ := keys_sorted h1 h.expense.2.1 fun d hd => day_real hr ((h.expense.2.2 d).1 hd)
  obtain ⟨x1', x2'⟩ := keys_sorted h1' h'.expense.2.1 fun d hd => day_real hr' ((h'.expense.2.2 d).1 hd)
  have ei : sort' (s'.income.map Prod.fst) = sort (s.income.map Prod.fst) :=
    sorted_days_unique i1' i1 fun d => by rw [i2', i2, h'.income.2.2, h.income.2.2, hnil]
  have ee : sort' (s'.expense.map Prod.fst) = sort (s.expense.map Prod.fst) :=
    sorted_days_unique x1' x1 fun d => by rw [x2', x2, h'.expense.2.2, h.expense.2.2, hnil]
  have nod : ∀ {l : List Date}, DaysSorted l → l.Nodup := fun h => h.imp fun hab e => by
    rw [e] at hab
    exact lt_irrefl _ hab
  have b1 : s.income.load (sort (s.income.map Prod.fst)) ≤ turnover ((ts.flatMap fun tf => selection fs tf.1).filter fun p => p.components.head? = some incomeID) := by
    refine le_trans ?_ (days_turnover incomeID (nod i1))
    unfold Buckets.load
    refine List.sum_le_sum fun d _ => ?_
    rw [h.income.1]
    exact (natAbs_neg _).trans (natAbs_value _)
  have b2 : s.expense.load (sort (s.expense.map Prod.fst)) ≤ turnover ((ts.flatMap fun tf => selection fs tf.1).filter fun p => p.components.head? = some expensesID) := by
    refine le_trans ?_ (days_turnover expensesID (nod x1))
    unfold Buckets.load
    refine List.sum_le_sum fun d _ => ?_
    rw [h.expense.1]
    exact natAbs_value _
  have b3 := turnover_two (show incomeID ≠ expensesID by decide) (ts.flatMap fun tf => selection fs tf.1)
  unfold Stats.ages
  rw [show (fun x : Date × I64 => x.1) = Prod.fst from rfl, ei, ee]
  refine ageOuter_times hk (nod i1) _ (fun d _ => ?_) _ _ _ (fun d _ => ?_) (lt_of_le_of_lt (Nat.mul_le_mul_left k (by omega)) hl)
  · rw [h'.expense.1, h.expense.1, valueOf_perm (dayPostings_times hp _ d), valueOf_times]
  · rw [h'.income.1, h.income.1, valueOf_perm (dayPostings_times hp _ d), valueOf_times, BitVec.mul_neg]

/-- Everything else is the same too. -/
theorem C144_stats {c : I64} (hts : ts ≠ []) (hr : ∀ tf ∈ ts, tf.1.date.Real) (hz : ∀ tf ∈ ts, ¬ tf.1.date.isZero) (hp : ts'.Perm (ts.map (timesBy c))) {s s' : Stats}
    (h : StatsOf fs ts s) (h' : StatsOf fs ts' s') :
    s'.first = s.first ∧ s'.last = s.last ∧ s'.count = s.count ∧ s'.accounts.Perm s.accounts ∧ s'.payees.Perm s.payees ∧ s'.files.Perm s.files := by
  have hts' : ts' ≠ [] := by
    rintro rfl
    exact hts (List.map_eq_nil_iff.1 hp.symm.eq_nil)
  have hmem : ∀ {tf}, tf ∈ ts' ↔ ∃ u ∈ ts, timesBy c u = tf := fun {tf} => by rw [hp.mem_iff, List.mem_map]
  have hz' : ∀ tf ∈ ts', ¬ tf.1.date.isZero := by
    intro tf htf
    obtain ⟨u, hu, rfl⟩ := hmem.1 htf
    exact hz u hu
  obtain ⟨⟨a, a1, a2⟩, a3⟩ := h.first hz hts
  obtain ⟨⟨b, b1, b2⟩, b3⟩ := h.last hz hts
  obtain ⟨⟨a', a1', a2'⟩, a3'⟩ := h'.first hz' hts'
  obtain ⟨⟨b', b1', b2'⟩, b3'⟩ := h'.last hz' hts'
  obtain ⟨x, x1, rfl⟩ := hmem.1 a1'
  obtain ⟨y, y1, rfl⟩ := hmem.1 b1'
  have ha := a3' _ (hmem.2 ⟨a, a1, rfl⟩)
  have hb := b3' _ (hmem.2 ⟨b, b1, rfl⟩)
  have hx := a3 x x1
  have hy := b3 y y1
  simp only [timesBy] at ha hb a2' b2'
  rw [← a2'] at ha
  rw [← b2'] at hb
  rw [← a2] at hx
  rw [← b2] at hy
  refine ⟨?_, ?_, by rw [h.count, h'.count, hp.length_eq, List.length_map], ?_, ?_, ?_⟩
  · rw [← a2', ← a2]
    exact dayNumber_inj (hr x x1) (hr a a1) (by omega)
  · rw [← b2', ← b2]
    exact dayNumber_inj (hr y y1) (hr b b1) (by omega)
  · rw [List.perm_ext_iff_of_nodup h'.accounts.1 h.accounts.1]
    intro x
    rw [h'.accounts.2, h.accounts.2]
    constructor
    · rintro ⟨tf, h1, p, h2, h3⟩
      obtain ⟨u, hu, rfl⟩ := hmem.1 h1
      rw [selection_times] at h2
      obtain ⟨q, hq, rfl⟩ := List.mem_map.1 h2
      exact ⟨u, hu, q, hq, h3⟩
    · rintro ⟨u, hu, q, hq, h3⟩
      exact ⟨_, hmem.2 ⟨u, hu, rfl⟩, q.times c, by rw [selection_times]; exact List.mem_map.2 ⟨q, hq, rfl⟩, h3⟩
  · rw [List.perm_ext_iff_of_nodup h'.payees.1 h.payees.1]
    intro x
    rw [h'.payees.2, h.payees.2]
    constructor
    · rintro ⟨tf, h1, h2⟩
      obtain ⟨u, hu, rfl⟩ := hmem.1 h1
      exact ⟨u, hu, h2⟩
    · rintro ⟨u, hu, h2⟩
      exact ⟨_, hmem.2 ⟨u, hu, rfl⟩, h2⟩
  · rw [List.perm_ext_iff_of_nodup h'.files.1 h.files.1]
    intro x
    rw [h'.files.2, h.files.2]
    constructor
    · rintro ⟨tf, h1, h2⟩
      obtain ⟨u, hu, rfl⟩ := hmem.1 h1
      exact ⟨u, hu, h2⟩
    · rintro ⟨u, hu, h2⟩
      exact ⟨_, hmem.2 ⟨u, hu, rfl⟩, h2⟩

variable [Unicode] {m m' : Machine} {o o' : Options} {args args' : List Str} {bytes bytes' : List UInt8} {js js' : List (Meant × Str)} {filters : List Filter}
  {admits admits' : Date → Bool} {path path' : Str}

/-- The transactions of the second journal are those of the first with all amounts multiplied, in whichever order, and those of the same days are asked for. -/
structure Enlarged (c : I64) (admits admits' : Date → Bool) (js js' : List (Meant × Str)) : Prop where
  same : (attributed js').Perm ((attributed js).map (timesBy c))
  days : ∀ tf ∈ attributed js, admits' tf.1.date = admits tf.1.date

omit [Unicode] in
theorem Enlarged.wanted {c : I64} (h : Enlarged c admits admits' js js') (filters : List Filter) :
    (wantedIn filters admits' js').Perm ((wantedIn filters admits js).map (timesBy c)) := by
  unfold wantedIn
  refine (h.same.filter _).trans ?_
  rw [List.filter_map]
  have e : (attributed js).filter ((fun tf : Transaction × Str => decide (admits' tf.1.date = true ∧ WantedBy filters tf.1)) ∘ timesBy c) =
      (attributed js).filter fun tf => admits tf.1.date ∧ WantedBy filters tf.1 := by
    refine List.filter_congr fun tf htf => ?_
    refine decide_eq_decide.2 ?_
    have hw : WantedBy filters (timesBy c tf).1 ↔ WantedBy filters tf.1 := by
      have e1 : WholeSelected filters (timesBy c tf).1 ↔ WholeSelected filters tf.1 := Iff.rfl
      unfold WantedBy
      rw [e1]
      refine or_congr_right ?_
      constructor
      · rintro ⟨p, hp, hf⟩
        obtain ⟨q, hq, rfl⟩ := List.mem_map.1 hp
        exact ⟨q, hq, hf⟩
      · rintro ⟨q, hq, hf⟩
        exact ⟨q.times c, List.mem_map.2 ⟨q, hq, rfl⟩, hf⟩
    show admits' tf.1.date = true ∧ WantedBy filters (timesBy c tf).1 ↔ _
    rw [h.days tf htf, hw]
  rw [e]

/-- `statistics` prints the same if all amounts are multiplied by the same positive number, as long as everything selected, regardless of signs, still fits in 64 bits (and the
files are listed in the same order). -/
theorem C144_statistics {k : Nat} (hk : 0 < k) (g : Setting m o args bytes filters admits path) {pg pg' : Page} (r : Reading m.fs m.lib m.maxOpen path bytes js (.ok pg))
    (hs : ¬ Command.statistics.Short filters admits (meanings js))
    (g' : Setting m' o' args' bytes' filters admits' path') (r' : Reading m'.fs m'.lib m'.maxOpen path' bytes' js' (.ok pg'))
    (hs' : ¬ Command.statistics.Short filters admits' (meanings js')) (h : Enlarged (BitVec.ofNat 64 k) admits admits' js js') (hw : wantedIn filters admits js ≠ [])
    (hz : ∀ tf ∈ wantedIn filters admits js, ¬ tf.1.date.isZero)
    (hl : k * turnover ((wantedIn filters admits js).flatMap fun tf => selection filters tf.1) < 2 ^ 63) :
    ∃ f files', FiguresOf filters (wantedIn filters admits js) f ∧ files'.Perm f.files ∧ m.run o .statistics args = ⟨(f.lines m.humanize).flatMap (· ++ str "\n"), .exit 0⟩ ∧
      m'.run o' .statistics args' = ⟨(({ f with files := files' } : Figures).lines m'.humanize).flatMap (· ++ str "\n"), .exit 0⟩ := by
  obtain ⟨d1, d2, _⟩ := C99_parsed r
  obtain ⟨d1', d2', _⟩ := C99_parsed r'
  have H : Heard m o args bytes js filters admits path := ⟨g, d1⟩
  have H' : Heard m' o' args' bytes' js' filters admits' path' := ⟨g', d1'⟩
  have hp := (runParse_cases m.fs m.maxOpen bytes path (m.env o filters).statsHandlers {}).2.1 (H.stopped (c := .statistics) hs) (d2 pg rfl)
  have hp' := (runParse_cases m'.fs m'.maxOpen bytes' path' (m'.env o' filters).statsHandlers {}).2.1 (H'.stopped (c := .statistics) hs') (d2' pg' rfl)
  have w := h.wanted filters
  have a1 := H.asks.2.1
  have a1' := H'.asks.2.1
  have hr : ∀ tf ∈ wantedIn filters admits js, tf.1.date.Real := by
    rw [← a1]
    exact fun tf htf => (picked_real _ htf).1
  have s1 := C53_statistics (m.env o filters) g.fair.postings _ _ _ _ _ hp
  have s1' := C53_statistics (m'.env o' filters) g'.fair.postings _ _ _ _ _ hp'
  have hw' : wantedIn filters admits' js' ≠ [] := by
    intro h0
    rw [h0] at w
    exact hw (List.map_eq_nil_iff.1 w.symm.eq_nil)
  obtain ⟨age, e1, e2, e3⟩ := stats_figures (m.env o filters) g.fair.postings m.humanize m.stringOrder g.fair.strings m.sortDates g.fair.dates _ _ _ _ _ hp (by rw [a1]; exact hw)
  obtain ⟨age', e1', e2', e3'⟩ := stats_figures (m'.env o' filters) g'.fair.postings m'.humanize m'.stringOrder g'.fair.strings m'.sortDates g'.fair.dates _ _ _ _ _ hp' (by rw [a1']; exact hw')
  rw [a1] at s1 e2
  rw [a1'] at s1'
  obtain ⟨k1, k2, k4, k5, k6, k7⟩ := C144_stats hw hr hz w s1 s1'
  have k8 := C144_age hk hr w hl g.fair.dates g'.fair.dates s1 s1'
  have k9 : age' = age := by
    have := congrArg decimalValue (show natDigits age' = natDigits age by rw [← e1', ← e1, k8])
    rwa [natDigits_value, natDigits_value] at this
  refine ⟨_, _, e2, (g'.fair.strings _).trans (k7.trans (g.fair.strings _).symm), ?_, ?_⟩
  · rw [H.run (by decide), Machine.runOn, statsCmd, hp]
    simp only [Except.map]
    rw [e3]
    rfl
  · rw [H'.run (by decide), Machine.runOn, statsCmd, hp']
    simp only [Except.map]
    rw [e3']
    have k3 : ∀ a b : Stats, a.first = b.first → a.last = b.last → a.days = b.days := fun a b h1 h2 => by unfold Stats.days; rw [h1, h2]
    simp only [k1, k2, k3 _ _ k1 k2, k4, k5.length_eq, k6.length_eq, k9]
    rfl

end

/-- The transactions of the two journals below are related in this way, and fit. -/
example :
    let posting (a : String) (q : Int) : Posting := { accountPath := str a, amount := some ⟨[], BitVec.ofInt 64 q⟩ }
    let t : Transaction := { date := ⟨2020, 1, 11⟩, payee := str "y", postings := [posting "Expenses:B" 200, posting "A" (-200)] }
    let u : Transaction := { date := ⟨2020, 1, 11⟩, payee := str "y", postings := [posting "Expenses:B" 20000, posting "A" (-20000)] }
    Enlarged (BitVec.ofNat 64 100) (fun _ => true) (fun _ => true) [(.transaction t, str "f")] [(.transaction u, str "f")] ∧
      100 * turnover ((wantedIn [] (fun _ => true) [(.transaction t, str "f")]).flatMap fun tf => selection [] tf.1) = 40000 := by
  refine ⟨⟨List.Perm.of_eq (by decide +kernel), fun _ _ => rfl⟩, by decide +kernel⟩

set_option maxRecDepth 100000 in
/-- In pounds and in pence. -/
example :
    letI := asciiUnicode
    let a := machineWith (str "f") "2020-01-01 x\n  A  10\n  Income:A\n\n2020-01-11 y\n  Expenses:B  2\n  A\n\n2020-01-12 x\n  Expenses:B  3\n  A\n"
    let b := machineWith (str "f") "2020-01-01 x\n  A  1000\n  Income:A\n\n2020-01-11 y\n  Expenses:B  200\n  A\n\n2020-01-12 x\n  Expenses:B  300\n  A\n"
    a.run { file := str "f" } .statistics [] = b.run { file := str "f" } .statistics [] ∧
      str "Age of money:\t\t10 days\n" <:+ (b.run { file := str "f" } .statistics []).stdout := by
  decide +kernel

set_option maxRecDepth 100000 in
/-- Not so if it does not fit: here twice what is earned is a negative number, and later income is spent as well. -/
theorem C144_overflow_false :
    letI := asciiUnicode
    let a := machineWith (str "f") "2020-01-01 x\n  A  50000000000000000\n  Income:A\n\n2020-01-05 x\n  A  1\n  Income:A\n\n2020-01-11 y\n  Expenses:B  2\n  A\n"
    let b := machineWith (str "f") "2020-01-01 x\n  A  -84467440737095516.16\n  Income:A\n\n2020-01-05 x\n  A  2\n  Income:A\n\n2020-01-11 y\n  Expenses:B  4\n  A\n"
    (2 : I64) * BitVec.ofInt 64 5000000000000000000 = BitVec.ofInt 64 (-8446744073709551616) ∧
    str "Age of money:\t\t10 days\n" <:+ (a.run { file := str "f" } .statistics []).stdout ∧
      str "Age of money:\t\t8 days\n" <:+ (b.run { file := str "f" } .statistics []).stdout := by
  decide +kernel

end Gledger
