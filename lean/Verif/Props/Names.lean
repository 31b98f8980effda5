/-
C105 Names of constants.
C106 The text of an account.
C107 Bounds of a periodic transaction.
-/
import Verif.Model.Names
import Verif.Spec.Reports
import Verif.Lemmas.Reports
import Verif.Lemmas.Numbers
import Verif.Props.Dates

namespace Gledger

/-! ### C105 Names of constants -/

/-- The decimal form of an integer. -/
def Decimal (i : Int) (s : Str) : Prop := ∃ ds, Digits ds ∧ decimalValue ds = i.natAbs ∧ s = if i < 0 then '-' :: ds else ds

theorem formatInt_decimal (i : Int) : Decimal i (formatInt i) := by
  cases i with
  | ofNat n => exact ⟨natDigits n, natDigits_digits n, by simp [natDigits_value], by simp [formatInt]⟩
  | negSucc n => exact ⟨natDigits (n + 1), natDigits_digits _, by simp [natDigits_value], by simp [formatInt]⟩

theorem Decimal.unique {i j : Int} {s : Str} (hi : Decimal i s) (hj : Decimal j s) : i = j := by
  obtain ⟨ds, h1, h2, h3⟩ := hi
  obtain ⟨es, g1, g2, g3⟩ := hj
  have nd : ∀ {ds : Str}, Digits ds → ds.head? ≠ some '-' := by
    intro ds hd h
    cases ds with
    | nil => cases h
    | cons c cs =>
      simp only [List.head?_cons, Option.some.injEq] at h
      subst h
      have := hd.2 '-' (by simp)
      revert this
      decide
  rw [h3] at g3
  by_cases a : i < 0 <;> by_cases b : j < 0
  · rw [if_pos a, if_pos b, List.cons.injEq] at g3
    rw [g3.2] at h2
    omega
  · rw [if_pos a, if_neg b] at g3
    exact absurd (by rw [← g3]; rfl) (nd g1)
  · rw [if_neg a, if_pos b] at g3
    exact absurd (by rw [g3]; rfl) (nd h1)
  · rw [if_neg a, if_neg b] at g3
    rw [g3] at h2
    omega

/-- The constants of a type, in the order of their values 0, 1, 2, …, with their names. -/
structure Enumeration where
  type : String
  constants : List String

/-- A text shows the values of a type: a constant by its name, any other number by the type and the number; and different numbers by different texts. -/
structure Enumeration.ShownBy (e : Enumeration) (text : Int → Option Str) : Prop where
  named : ∀ (i : Nat) (c : String), e.constants[i]? = some c → text i = some (str c)
  other : ∀ i : Int, i < 0 ∨ (e.constants.length : Int) ≤ i → ∃ ds, Decimal i ds ∧ text i = some (str e.type ++ str "(" ++ ds ++ str ")")
  different : ∀ i j, text i = text j → i = j

theorem enumeration_shown (e : Enumeration) (name : Str) (index : List Nat) (hl : index.length = e.constants.length + 1)
    (hn : ∀ i < e.constants.length, (stringer (str e.type) name index (i : Nat)) = (e.constants[i]?).map str)
    (hd : (e.constants.map str).Nodup) (hp : ∀ c ∈ e.constants, '(' ∉ str c) : e.ShownBy (stringer (str e.type) name index) := by
  have other : ∀ i : Int, i < 0 ∨ (e.constants.length : Int) ≤ i → stringer (str e.type) name index i = some (str e.type ++ str "(" ++ formatInt i ++ str ")") := by
    intro i hi
    rw [stringer, if_pos (by rw [hl]; push_cast; omega)]
  have named : ∀ (i : Nat) (c : String), e.constants[i]? = some c → stringer (str e.type) name index i = some (str c) := by
    intro i c hc
    rw [hn i (List.getElem?_eq_some_iff.1 hc).1, hc]
    rfl
  have paren : '(' ∈ str "(" := by decide
  have mixed : ∀ {i j : Int}, (0 ≤ i ∧ i < e.constants.length) → ¬ (0 ≤ j ∧ j < e.constants.length) →
      stringer (str e.type) name index i ≠ stringer (str e.type) name index j := by
    intro i j hi hj he
    have hc : e.constants[i.toNat]? = some (e.constants[i.toNat]'(by omega)) := List.getElem?_eq_getElem _
    rw [show i = ((i.toNat : Nat) : Int) by omega, named _ _ hc, other j (by omega)] at he
    apply hp _ (List.getElem_mem (by omega : i.toNat < e.constants.length))
    rw [Option.some.inj he]
    simp [paren]
  refine ⟨named, fun i hi => ⟨_, formatInt_decimal i, other i hi⟩, ?_⟩
  intro i j he
  by_cases hi : 0 ≤ i ∧ i < e.constants.length <;> by_cases hj : 0 ≤ j ∧ j < e.constants.length
  · obtain ⟨a, rfl⟩ := Int.eq_ofNat_of_zero_le hi.1
    obtain ⟨b, rfl⟩ := Int.eq_ofNat_of_zero_le hj.1
    have ha : a < e.constants.length := by omega
    have hb : b < e.constants.length := by omega
    rw [named a _ (List.getElem?_eq_getElem ha), named b _ (List.getElem?_eq_getElem hb)] at he
    have := (List.Nodup.getElem_inj_iff hd (i := a) (j := b) (hi := by rwa [List.length_map]) (hj := by rwa [List.length_map])).1
      (by rw [List.getElem_map, List.getElem_map]; exact Option.some.inj he)
    rw [this]
  · exact absurd he (mixed hi hj)
  · exact absurd he.symm (mixed hj hi)
  · rw [other i (by omega), other j (by omega)] at he
    have he := Option.some.inj he
    rw [List.append_assoc, List.append_assoc, List.append_assoc, List.append_assoc] at he
    have he := List.append_cancel_right (List.append_cancel_left (List.append_cancel_left he))
    exact (formatInt_decimal i).unique (by rw [he]; exact formatInt_decimal j)

/-- journal/periodictransaction.go:11-24 -/
def periodTypes : Enumeration :=
  ⟨"PeriodType", ["PNone", "PDaily", "PWeekly", "PMonthly", "PQuarterly", "PYearly", "PBiweekly", "PFortnightly", "PBiMonthly"]⟩

/-- journal/transaction.go:11-18 -/
def transactionStates : Enumeration := ⟨"TransactionState", ["NoState", "UnclearedState", "ClearedState"]⟩

/-- parser/lexer.go:19-34 -/
def itemTypes : Enumeration :=
  ⟨"itemType", ["emptyLineItem", "includeItem", "dateItem", "stateItem", "payeeItem", "accountItem", "commodityItem", "amountItem", "commentItem",
    "transactionHeaderCommentItem", "periodItem", "eofItem"]⟩

/-- parser/transactionbuilder.go:11-16 -/
def transactionTypes : Enumeration := ⟨"transactionType", ["normalTransaction", "periodicTransaction"]⟩

set_option maxRecDepth 100000 in
/-- The generated tables name every constant rightly, never fail, and keep different values apart. -/
theorem C105_names : periodTypes.ShownBy periodTypeString ∧ transactionStates.ShownBy transactionStateString ∧ itemTypes.ShownBy itemTypeString ∧
    transactionTypes.ShownBy transactionTypeString := by
  refine ⟨?_, ?_, ?_, ?_⟩
  · exact enumeration_shown periodTypes (str "PNonePDailyPWeeklyPMonthlyPQuarterlyPYearlyPBiweeklyPFortnightlyPBiMonthly") [0, 5, 11, 18, 26, 36, 43, 52, 64, 74]
      (by decide) (by decide) (by decide) (by decide)
  · exact enumeration_shown transactionStates (str "NoStateUnclearedStateClearedState") [0, 7, 21, 33] (by decide) (by decide) (by decide) (by decide)
  · exact enumeration_shown itemTypes
      (str "emptyLineItemincludeItemdateItemstateItempayeeItemaccountItemcommodityItemamountItemcommentItemtransactionHeaderCommentItemperiodItemeofItem")
      [0, 13, 24, 32, 41, 50, 61, 74, 84, 95, 123, 133, 140] (by decide) (by decide) (by decide) (by decide)
  · exact enumeration_shown transactionTypes (str "normalTransactionperiodicTransaction") [0, 17, 36] (by decide) (by decide) (by decide) (by decide)

set_option maxRecDepth 100000 in
/-- A name, and numbers beyond the constants. -/
example : periodTypeString 3 = some (str "PMonthly") ∧ itemTypeString 11 = some (str "eofItem") ∧ itemTypeString (-1) = some (str "itemType(-1)") ∧
    transactionStateString 10 = some (str "TransactionState(10)") := by decide

/-! ### C106 The text of an account -/

/-- The accounts from `r` down, in the order in which the maps are iterated. -/
def Heap.outline (h : Heap) : Nat → Ref → List Str → List (List Str × Ref)
  | 0, _, _ => []
  | n + 1, r, cs => (cs, r) :: (h.node r).children.flatMap fun kc => h.outline n kc.2 (cs ++ [kc.1])

theorem mem_outline {h : Heap} (ht : h.Tree) : ∀ (n : Nat) (r : Ref) (cs ds : List Str) (x : Ref), r < h.next → h.next ≤ r + n →
    ((ds, x) ∈ h.outline n r cs ↔ ∃ es, ds = cs ++ es ∧ h.walk r es = some x) := by
  intro n
  induction n with
  | zero => intro r cs ds x h1 h2; omega
  | succ n ih =>
    intro r cs ds x h1 h2
    rw [Heap.outline, List.mem_cons, List.mem_flatMap]
    constructor
    · rintro (h3 | ⟨⟨k, c⟩, h3, h4⟩)
      · cases h3; exact ⟨[], by simp, rfl⟩
      · have h5 := ht.child_iff.2 h3
        obtain ⟨g1, g2, _⟩ := ht.child_lt h5
        obtain ⟨es, rfl, h6⟩ := (ih c _ ds x g2 (by omega)).1 h4
        exact ⟨k :: es, by simp, by rw [Heap.walk_cons, h5]; exact h6⟩
    · rintro ⟨es, rfl, h3⟩
      cases es with
      | nil => cases h3; simp
      | cons k es =>
        rw [Heap.walk_cons, Option.bind_eq_some_iff] at h3
        obtain ⟨c, h5, h6⟩ := h3
        obtain ⟨g1, g2, _⟩ := ht.child_lt h5
        exact Or.inr ⟨(k, c), ht.child_iff.1 h5, (ih c _ _ x g2 (by omega)).2 ⟨es, by simp, h6⟩⟩

theorem outline_prefix {h : Heap} : ∀ (n : Nat) (r : Ref) (cs : List Str), ∀ a ∈ h.outline n r cs, cs <+: a.1 := by
  intro n
  induction n with
  | zero => intro r cs a ha; cases ha
  | succ n ih =>
    intro r cs a ha
    rw [Heap.outline, List.mem_cons, List.mem_flatMap] at ha
    rcases ha with rfl | ⟨kc, _, ha⟩
    · exact List.prefix_rfl
    · exact (List.prefix_append cs [kc.1]).trans (ih _ _ a ha)

theorem nodup_outline {h : Heap} (ht : h.Tree) : ∀ (n : Nat) (r : Ref) (cs : List Str), ((h.outline n r cs).map Prod.fst).Nodup := by
  intro n
  induction n with
  | zero => intro r cs; exact List.nodup_nil
  | succ n ih =>
    intro r cs
    rw [Heap.outline, List.map_cons, List.nodup_cons]
    constructor
    · intro hm
      obtain ⟨a, ha, hcs⟩ := List.mem_map.1 hm
      obtain ⟨kc, _, ha⟩ := List.mem_flatMap.1 ha
      have := (outline_prefix _ _ _ a ha).length_le
      rw [hcs] at this
      simp at this
    · rw [List.map_flatMap, List.nodup_flatMap]
      refine ⟨fun kc _ => ih _ _, ?_⟩
      have hk := ht.keys r
      rw [List.Nodup, List.pairwise_map] at hk
      refine hk.imp ?_
      intro a b hab x hxa hxb
      obtain ⟨u, hu, rfl⟩ := List.mem_map.1 hxa
      obtain ⟨v, hv, hvu⟩ := List.mem_map.1 hxb
      have p1 := outline_prefix _ _ _ u hu
      have p2 := outline_prefix _ _ _ v hv
      rw [hvu] at p2
      have := List.prefix_of_prefix_length_le p1 p2 (by simp)
      have := this.eq_of_length (by simp)
      simp only [List.append_cancel_left_eq, List.cons.injEq, and_true] at this
      exact hab this

/-- A line: the name of the account, two columns further right for each level. -/
def Heap.outlineLine (h : Heap) (a : List Str × Ref) : Str := List.replicate (2 * a.1.length) ' ' ++ (h.node a.2).name

theorem outline_ne {h : Heap} (n : Nat) (r : Ref) (cs : List Str) : h.outline (n + 1) r cs ≠ [] := by rw [Heap.outline]; simp

theorem joinLines_cons_flat (x : Str) (ls : List (List Str)) (h : ∀ l ∈ ls, l ≠ []) : joinLines (x :: ls.flatten) = ls.foldl (fun s l => s ++ '\n' :: joinLines l) x := by
  have step : ∀ (a : Str) (l : List Str), l ≠ [] → joinLines (a :: l) = a ++ '\n' :: joinLines l := by
    intro a l hl
    cases l with
    | nil => exact absurd rfl hl
    | cons b l => simp [joinLines, List.intercalate]
  have app : ∀ (l m : List Str), l ≠ [] → m ≠ [] → joinLines (l ++ m) = joinLines l ++ '\n' :: joinLines m := by
    intro l m hl hm
    induction l with
    | nil => exact absurd rfl hl
    | cons a l ih =>
      cases l with
      | nil => rw [List.cons_append, List.nil_append, step a m hm]; simp [joinLines]
      | cons b l => rw [List.cons_append, step a _ (by simp), step a (b :: l) (by simp), ih (by simp)]; simp
  have gen : ∀ (ls : List (List Str)) (pre : List Str), pre ≠ [] → (∀ l ∈ ls, l ≠ []) →
      joinLines (pre ++ ls.flatten) = ls.foldl (fun s l => s ++ '\n' :: joinLines l) (joinLines pre) := by
    intro ls
    induction ls with
    | nil => intro pre _ _; simp
    | cons l ls ih =>
      intro pre hp hl
      rw [List.flatten_cons, ← List.append_assoc, ih (pre ++ l) (by simp [hp]) (fun m hm => hl m (by simp [hm])), app pre l hp (hl l (by simp))]
      rfl
  have := gen ls [x] (by simp) h
  simpa [joinLines] using this

theorem stringLoop_outline {h : Heap} (ht : h.Tree) : ∀ (n : Nat) (r : Ref) (cs : List Str), r < h.next → h.next ≤ r + n →
    h.stringLoop n cs.length r = joinLines ((h.outline n r cs).map h.outlineLine) := by
  intro n
  induction n with
  | zero => intro r cs h1 h2; omega
  | succ n ih =>
    intro r cs h1 h2
    rw [Heap.stringLoop, Heap.outline, List.map_cons, List.map_flatMap, List.flatMap_def, joinLines_cons_flat]
    · rw [List.foldl_map, show h.outlineLine (cs, r) = List.replicate (cs.length * tabWidth) ' ' ++ (h.node r).name by
        rw [Heap.outlineLine, Nat.mul_comm]; rfl]
      apply List.foldl_ext
      intro s kc hkc
      obtain ⟨g1, g2, _⟩ := ht.down r kc.1 kc.2 hkc
      rw [← ih kc.2 (cs ++ [kc.1]) g2 (by omega), List.length_append]
      rfl
    · intro l hl
      obtain ⟨kc, hkc, rfl⟩ := List.mem_map.1 hl
      obtain ⟨g1, g2, _⟩ := ht.down r kc.1 kc.2 hkc
      obtain ⟨n, rfl⟩ : ∃ k, n = k + 1 := ⟨n - 1, by omega⟩
      simpa using outline_ne n kc.2 (cs ++ [kc.1])

/-- The paths of accounts as lines with their levels show them: a line continues the path of the nearest line above it that is less deep. -/
def pathsOfLines (previous : List Str) : List (Nat × Str) → List (List Str)
  | [] => []
  | (d, name) :: rest =>
    let path := if d = 0 then [] else previous.take (d - 1) ++ [name]
    path :: pathsOfLines path rest

theorem pathsOfLines_append (p : List Str) (a b : List (Nat × Str)) :
    pathsOfLines p (a ++ b) = pathsOfLines p a ++ pathsOfLines ((pathsOfLines p a).getLastD p) b := by
  induction a generalizing p with
  | nil => rfl
  | cons x a ih =>
    obtain ⟨d, name⟩ := x
    rw [List.cons_append, pathsOfLines, pathsOfLines, ih]
    simp only [List.cons_append, List.cons.injEq, true_and, List.append_cancel_left_eq]
    congr 1
    rw [List.getLastD_cons]

theorem pathsOfLines_outline {h : Heap} (ht : h.Tree) : ∀ (n : Nat) (r : Ref) (cs p : List Str), r < h.next → h.next ≤ r + n →
    (cs ≠ [] → cs = p.take (cs.length - 1) ++ [(h.node r).name]) →
    pathsOfLines p ((h.outline n r cs).map fun a => (a.1.length, (h.node a.2).name)) = (h.outline n r cs).map Prod.fst := by
  intro n
  induction n with
  | zero => intro r cs p h1 h2; omega
  | succ n ih =>
    intro r cs p h1 h2 hp
    rw [Heap.outline, List.map_cons, pathsOfLines, List.map_cons]
    have hcs : (if cs.length = 0 then [] else p.take (cs.length - 1) ++ [(h.node r).name]) = cs := by
      split
      · rename_i h0; exact (List.length_eq_zero_iff.1 h0).symm
      · rename_i h0; exact (hp (by simpa using h0)).symm
    simp only
    rw [hcs]
    congr 1
    have key : ∀ (l : List (Str × Ref)) (q : List Str), cs <+: q → (∀ kc ∈ l, kc ∈ (h.node r).children) →
        pathsOfLines q ((l.flatMap fun kc => h.outline n kc.2 (cs ++ [kc.1])).map fun a => (a.1.length, (h.node a.2).name)) =
          (l.flatMap fun kc => h.outline n kc.2 (cs ++ [kc.1])).map Prod.fst := by
      intro l
      induction l with
      | nil => intro q _ _; rfl
      | cons kc l ihl =>
        intro q hq hl
        obtain ⟨g1, g2, _, g4⟩ := ht.down r kc.1 kc.2 (hl kc (by simp))
        have hi := ih kc.2 (cs ++ [kc.1]) q g2 (by omega) (fun _ => by
          rw [List.length_append, List.length_singleton, Nat.add_sub_cancel, g4]
          congr 1
          exact (List.prefix_iff_eq_take.1 hq))
        rw [List.flatMap_cons, List.map_append, pathsOfLines_append, hi, List.map_append, ihl]
        · rw [List.getLastD_eq_getLast?]
          cases hg : ((h.outline n kc.2 (cs ++ [kc.1])).map Prod.fst).getLast? with
          | none => simpa using hq
          | some x =>
            obtain ⟨a, ha, rfl⟩ := List.mem_map.1 (List.mem_of_getLast? hg)
            exact (List.prefix_append cs [kc.1]).trans (outline_prefix _ _ _ a ha)
        · exact fun x hx => hl x (by simp [hx])
    exact key _ cs List.prefix_rfl (fun _ h => h)

/-- The text of an account has a line for the account and for each account below it, indented by their depth; each account has one line, and the
indentation shows what is below what. -/
theorem C106_text {h : Heap} (ht : h.Tree) {r : Ref} (hr : r < h.next) : ∃ l : List (List Str × Ref),
    h.string r = joinLines (l.map h.outlineLine) ∧ (l.map Prod.fst).Nodup ∧ (∀ cs x, (cs, x) ∈ l ↔ h.walk r cs = some x) ∧
    pathsOfLines [] (l.map fun a => (a.1.length, (h.node a.2).name)) = l.map Prod.fst := by
  refine ⟨h.outline h.next r [], ?_, nodup_outline ht _ _ _, fun cs x => ?_, ?_⟩
  · exact stringLoop_outline ht h.next r [] hr (by omega)
  · rw [mem_outline ht _ _ _ _ _ hr (by omega)]; simp
  · exact pathsOfLines_outline ht _ _ _ _ hr (by omega) (fun h => absurd rfl h)

/-- Names that can be told from the indentation and from one another. -/
def Heap.Legible (h : Heap) (r : Ref) : Prop := ∀ cs x, h.walk r cs = some x → '\n' ∉ (h.node x).name ∧ (h.node x).name.head? ≠ some ' '

theorem joinLines_inj {ls ms : List Str} (hl : ∀ l ∈ ls, '\n' ∉ l) (hm : ∀ m ∈ ms, '\n' ∉ m) (h1 : ls ≠ []) (h2 : ms ≠ [])
    (h : joinLines ls = joinLines ms) : ls = ms := by
  have key : ∀ ls : List Str, ls ≠ [] → (∀ l ∈ ls, '\n' ∉ l) → split '\n' (joinLines ls) = ls := by
    intro ls
    induction ls with
    | nil => intro h; exact absurd rfl h
    | cons a ls ih =>
      intro _ hl
      cases ls with
      | nil => simp only [joinLines, List.intercalate]; simpa using split_no_sep (hl a (by simp))
      | cons b ls =>
        have : joinLines (a :: b :: ls) = a ++ '\n' :: joinLines (b :: ls) := by simp [joinLines, List.intercalate]
        rw [this, split_sep _ (hl a (by simp)), ih (by simp) (fun l hl' => hl l (by simp [hl']))]
  rw [← key ls h1 hl, ← key ms h2 hm, h]

theorem indent_inj {a b : Nat} {s t : Str} (hs : s.head? ≠ some ' ') (ht : t.head? ≠ some ' ')
    (h : List.replicate (2 * a) ' ' ++ s = List.replicate (2 * b) ' ' ++ t) : a = b ∧ s = t := by
  have key : ∀ (n : Nat) (s : Str), s.head? ≠ some ' ' → ((List.replicate n ' ' ++ s).takeWhile (· = ' ')).length = n := by
    intro n s hs
    induction n with
    | zero =>
      cases s with
      | nil => rfl
      | cons c s =>
        have : c ≠ ' ' := by simpa using hs
        simp [this]
    | succ n ih => rw [List.replicate_succ, List.cons_append, List.takeWhile_cons]; simpa using ih
  have h1 := key (2 * a) s hs
  rw [h, key (2 * b) t ht] at h1
  have : a = b := by omega
  subst this
  exact ⟨rfl, List.append_cancel_left h⟩

/-- So the text of an account tells all the accounts below it. -/
theorem C106_accounts_from_text {h h' : Heap} (ht : h.Tree) (ht' : h'.Tree) {r r' : Ref} (hr : r < h.next) (hr' : r' < h'.next) (hl : h.Legible r)
    (hl' : h'.Legible r') (he : h.string r = h'.string r') (cs : List Str) : (h.walk r cs).isSome ↔ (h'.walk r' cs).isSome := by
  obtain ⟨l, t1, _, m1, p1⟩ := C106_text ht hr
  obtain ⟨l', t2, _, m2, p2⟩ := C106_text ht' hr'
  have nl : ∀ {h : Heap} {a : List Str × Ref}, '\n' ∉ (h.node a.2).name → '\n' ∉ h.outlineLine a := by
    intro h a ha hc
    rw [Heap.outlineLine, List.mem_append] at hc
    rcases hc with hc | hc
    · exact absurd (List.eq_of_mem_replicate hc) (by decide)
    · exact ha hc
  have ne : ∀ {h : Heap} {r : Ref} {l : List (List Str × Ref)}, (∀ cs x, (cs, x) ∈ l ↔ h.walk r cs = some x) → l ≠ [] := by
    intro h r l hm h0
    have := (hm [] r).2 rfl
    rw [h0] at this
    cases this
  have hlines : l.map h.outlineLine = l'.map h'.outlineLine := by
    apply joinLines_inj
    · intro s hs
      obtain ⟨a, ha, rfl⟩ := List.mem_map.1 hs
      exact nl (hl a.1 a.2 ((m1 _ _).1 ha)).1
    · intro s hs
      obtain ⟨a, ha, rfl⟩ := List.mem_map.1 hs
      exact nl (hl' a.1 a.2 ((m2 _ _).1 ha)).1
    · simpa using ne m1
    · simpa using ne m2
    · rw [← t1, ← t2, he]
  have hpairs : l.map (fun a => (a.1.length, (h.node a.2).name)) = l'.map fun a => (a.1.length, (h'.node a.2).name) := by
    have f : List.Forall₂ (fun a b => h.outlineLine a = h'.outlineLine b) l l' := by
      rw [← List.forall₂_eq_eq_eq, List.forall₂_map_left_iff, List.forall₂_map_right_iff] at hlines
      exact hlines
    rw [← List.forall₂_eq_eq_eq, List.forall₂_map_left_iff, List.forall₂_map_right_iff]
    have f' := (List.forall₂_and_left (p := fun a => (h.node a.2).name.head? ≠ some ' ') l l').2 ⟨fun a ha => (hl a.1 a.2 ((m1 _ _).1 ha)).2, f⟩
    have f'' := (List.forall₂_and_left (p := fun a => (h'.node a.2).name.head? ≠ some ' ') l' l).2 ⟨fun a ha => (hl' a.1 a.2 ((m2 _ _).1 ha)).2, f'.flip⟩
    refine f''.flip.imp ?_
    rintro a b ⟨hb, ha, hab⟩
    obtain ⟨h1, h2⟩ := indent_inj ha hb hab
    rw [h1, h2]
  rw [hpairs, p2] at p1
  have hm : ∀ {h : Heap} {r : Ref} {l : List (List Str × Ref)}, (∀ cs x, (cs, x) ∈ l ↔ h.walk r cs = some x) → (cs ∈ l.map Prod.fst ↔ (h.walk r cs).isSome) := by
    intro h r l hm
    rw [List.mem_map, Option.isSome_iff_exists]
    constructor
    · rintro ⟨a, ha, rfl⟩; exact ⟨a.2, (hm _ _).1 ha⟩
    · rintro ⟨x, hx⟩; exact ⟨(cs, x), (hm _ _).2 hx, rfl⟩
  rw [← hm m1, ← hm m2, p1]

/-- Three accounts; a name that begins with spaces makes another tree look the same. -/
example :
    let h := ((newAccount rootID).newAccountWithChildren 0 [str "a", str "b"]).2
    let h1 := (h.newAccountWithChildren 0 [str "c"]).2
    let h2 := (((newAccount rootID).newAccountWithChildren 0 [str "a"]).2.newAccountWithChildren 0 [str "  b"]).2
    h1.string 0 = str "_root_\n  a\n    b\n  c" ∧ h.string 0 = h2.string 0 ∧ h.Has [str "a", str "b"] ∧ ¬ h2.Has [str "a", str "b"] := by
  decide +kernel

/-! ### C107 Bounds of a periodic transaction -/

/-- With an interval there are no transactions, so none is out of bounds; with zero bounds there are none to keep to. -/
theorem C107_bounds_partial (pt : PeriodicTransaction) (start finish : Date) (h : pt.period.interval ≠ .none ∨ (start = Date.zero ∧ finish = Date.zero)) :
    ∀ t ∈ (pt.runBetween start finish).1, (start ≠ Date.zero → ¬ t.date.before start) ∧ (finish ≠ Date.zero → ¬ finish.before t.date) := by
  intro t ht
  rcases h with h | ⟨rfl, rfl⟩
  · rw [PeriodicTransaction.runBetween, if_neg h] at ht
    split at ht <;> cases ht
  · exact ⟨fun h => absurd rfl h, fun h => absurd rfl h⟩

/-- Without an interval the one transaction is given whatever the bounds. -/
theorem C107_bounds_false : ¬ ∀ (pt : PeriodicTransaction) (start finish : Date), ∀ t ∈ (pt.runBetween start finish).1,
    (start ≠ Date.zero → ¬ t.date.before start) ∧ (finish ≠ Date.zero → ¬ finish.before t.date) := by
  intro h
  have := h { period := { startDate := ⟨2020, 1, 1⟩, endDate := ⟨2020, 1, 1⟩ }, transaction := {} } ⟨2021, 1, 1⟩ ⟨2022, 1, 1⟩ _ (by
    rw [PeriodicTransaction.runBetween, if_pos rfl]
    exact List.mem_singleton.2 rfl)
  exact this.1 (by decide) (by decide)

/-- What it gives, and prints, for all bounds: the transaction itself at the start of the period if there is no interval; nothing otherwise, with a message
unless the period and the bounds have no day in common. -/
theorem C107_run (pt : PeriodicTransaction) (start finish : Date) :
    (pt.period.interval = .none → pt.runBetween start finish = ([{ pt.transaction with date := pt.period.startDate }], [])) ∧
    (pt.period.interval ≠ .none → pt.runBetween start finish = ([],
      if (start ≠ Date.zero ∧ pt.period.endDate.before start) ∨ (finish ≠ Date.zero ∧ finish.before pt.period.startDate) then []
      else str "unhandled conversion of non-budget periodic transaction\n")) := by
  constructor
  · intro h; rw [PeriodicTransaction.runBetween, if_pos h]
  · intro h
    rw [PeriodicTransaction.runBetween, if_neg h]
    split <;> rfl

/-- The program uses it with zero bounds. -/
theorem runBetween_zero (pt : PeriodicTransaction) : pt.runBetween Date.zero Date.zero = (pt.run, pt.runOut) := by
  unfold PeriodicTransaction.runBetween PeriodicTransaction.run PeriodicTransaction.runOut
  split <;> simp

end Gledger
