/-
C49, C51, C52: what the print, accounts and payees commands list.
-/
import Verif.Spec.Commands
import Verif.Lemmas.Sorting
import Verif.Lemmas.Replay
import Verif.Props.Filters
import Mathlib.Data.List.Sort

set_option maxRecDepth 100000

namespace Gledger

theorem runParse_replay [Unicode] {σ : Type} {fs : FileSystem} {maxOpen : Nat} {bytes : List UInt8} {path : Str} {H : Handlers σ} {u v : σ} :
    runParse fs maxOpen bytes path H u = .ok v ↔
      rejection fs maxOpen bytes path = none ∧ H.replay (delivered fs maxOpen bytes path) u = (v, none) := by
  rw [← runParse_ok]
  unfold runParse
  rcases parse fs H maxOpen bytes path (newParser u) with ⟨st, _ | f⟩
  · simp
  · simp

theorem normals_cons (c : Call) (cs : List Call) : normals (c :: cs) = normals [c] ++ normals cs := by
  cases c <;> simp [normals]

/-- Which transactions the check of the flags and filters lets through. -/
theorem check_picks (e : Env) (ho : ∀ l, (e.mapOrder l).Perm l) (t : Transaction) (m : Bool) (ps : List Posting)
    (h : e.checkAgainstFilters t = .ok (m, ps)) :
    (e.InRange t ∨ e.withinDateRange t = .ok false) ∧ ((m = true ∨ 0 < ps.length) ↔ e.InRange t ∧ e.Wanted t) ∧
      (e.InRange t → ps.Perm (selection e.filters t)) := by
  unfold Env.InRange
  rcases hr : e.withinDateRange t with err | _ | _
  · simp only [Env.checkAgainstFilters, hr] at h; cases h
  · rw [C44_out_of_range e t hr] at h
    cases h
    simp
  · obtain ⟨qs, h1, h2⟩ := C44_any_of e ho t hr
    rw [h1] at h
    cases h
    refine ⟨Or.inl rfl, ?_, fun _ => h2⟩
    rw [h2.length_eq, decide_eq_true_eq]
    unfold Env.Wanted selection
    by_cases hw : WholeSelected e.filters t
    · simp [hw]
    · rw [if_neg hw]
      simp only [hw, false_or, true_and]
      rw [List.length_pos_iff, ne_eq, List.filter_eq_nil_iff]
      simp only [decide_eq_true_eq]
      push Not
      exact Iff.rfl

/-! ### C49 print shows every matching transaction once, in date order -/

theorem print_replay (e : Env) (ho : ∀ l, (e.mapOrder l).Perm l) (calls : List Call) : ∀ (ts ts' : List Transaction),
    e.printHandlers.replay calls ts = (ts', none) → ts' = ts ++ (e.picked calls).map Prod.fst := by
  induction calls with
  | nil => intro ts ts' h; cases h; simp [Env.picked, normals]
  | cons c calls ih =>
    intro ts ts' h
    rw [Handlers.replay] at h
    unfold Env.picked
    rw [normals_cons, List.filter_append, List.map_append]
    cases c with
    | periodic pt f =>
      simp only [Handlers.call, Env.printHandlers, Step.andThen] at h
      rw [ih ts ts' h]
      simp [normals, Env.picked]
    | normal t f =>
      simp only [Handlers.call, Env.printHandlers] at h
      rw [Env.printHandler] at h
      split at h
      · cases h
      · rename_i m ps hc
        obtain ⟨_, h2, _⟩ := check_picks e ho t m ps hc
        by_cases hp : m = true ∨ 0 < ps.length
        · rw [if_pos hp] at h
          rw [ih _ ts' h]
          simp [normals, h2.1 hp, Env.picked]
        · rw [if_neg hp] at h
          rw [ih _ ts' h]
          have : ¬ (e.InRange t ∧ e.Wanted t) := fun hh => hp (h2.2 hh)
          simp [normals, this, Env.picked]

/-- What `sort.Slice` with the comparison of the print command may do: any reordering without a transaction before an earlier one. -/
def SortsByDate (sort : List Transaction → List Transaction) : Prop :=
  ∀ ts, (sort ts).Perm ts ∧ (sort ts).Pairwise fun a b => ¬ b.date.before a.date

/-- The print command outputs the formatted transactions that the flags and filters let through, each as often as it is in the
journal, by date. -/
theorem C49_print [Unicode] (e : Env) (ho : ∀ l, (e.mapOrder l).Perm l) (sort : List Transaction → List Transaction) (hs : SortsByDate sort)
    (fs : FileSystem) (maxOpen : Nat) (bytes : List UInt8) (path text : Str) (h : printCmd e sort fs maxOpen bytes path = .ok text) :
    ∃ ts : List Transaction, ts.Perm ((e.picked (delivered fs maxOpen bytes path)).map Prod.fst) ∧ ts.Pairwise (fun a b => a.date.dayNumber ≤ b.date.dayNumber) ∧
      text = (ts.map fun t => t.format ++ str "\n").flatten := by
  unfold printCmd at h
  cases hj : runParse fs maxOpen bytes path e.printHandlers [] with
  | error f => rw [hj] at h; cases h
  | ok ts =>
    rw [hj] at h
    cases h
    have := print_replay e ho _ [] ts (runParse_replay.1 hj).2
    rw [List.nil_append] at this
    refine ⟨sort ts, this ▸ (hs ts).1, ?_, ?_⟩
    · refine (hs ts).2.imp ?_
      intro a b hab
      unfold Date.before at hab
      simpa using hab
    · show printReport (sort ts) = _
      unfold printReport
      rw [List.flatMap_def]

/-- It gets through for every journal that parses, unless the date flags cannot be read. -/
theorem C49_runs [Unicode] (e : Env) (sort : List Transaction → List Transaction) (fs : FileSystem) (maxOpen : Nat) (bytes : List UInt8) (path : Str)
    (hr : rejection fs maxOpen bytes path = none) (hd : ∀ t, ∃ b, e.withinDateRange t = .ok b) :
    ∃ text, printCmd e sort fs maxOpen bytes path = .ok text := by
  have key : ∀ (calls : List Call) (ts : List Transaction), ∃ ts', e.printHandlers.replay calls ts = (ts', none) := by
    intro calls
    induction calls with
    | nil => intro ts; exact ⟨ts, rfl⟩
    | cons c calls ih =>
      intro ts
      rw [Handlers.replay]
      cases c with
      | periodic pt f => exact ih ts
      | normal t f =>
        simp only [Handlers.call, Env.printHandlers]
        rw [Env.printHandler]
        obtain ⟨b, hb⟩ := hd t
        have hc : ∃ m ps, e.checkAgainstFilters t = .ok (m, ps) := by
          unfold Env.checkAgainstFilters
          rw [hb]
          cases b with
          | false => exact ⟨_, _, rfl⟩
          | true =>
            simp only
            split
            · exact ⟨_, _, rfl⟩
            · split <;> exact ⟨_, _, rfl⟩
        obtain ⟨m, ps, hc⟩ := hc
        rw [hc]
        simp only
        split
        · exact ih _
        · exact ih _
  obtain ⟨ts, h⟩ := key (delivered fs maxOpen bytes path) []
  refine ⟨printReport (sort ts), ?_⟩
  unfold printCmd
  rw [runParse_replay.2 ⟨hr, h⟩]
  rfl

/-- A journal out of order, with a filter on a payee. -/
example :
    letI := asciiUnicode
    let e : Env := { filters := [{ regex := fun s => s == str "x", ftype := .payee }] }
    let sort := List.insertionSort fun (a b : Transaction) => (!b.date.before a.date) = true
    (printCmd e sort noFiles 1 (utf8 "2020-01-02 x\n  A  1\n  B\n\n2020-01-01 x\n  A  2\n  B\n\n2020-01-01 y\n  A  2\n  B\n") (str "f")).toOption =
      (printCmd {} sort noFiles 1 (utf8 "2020-01-01 x\n  A  2\n  B\n\n2020-01-02 x\n  A  1\n  B\n") (str "f")).toOption ∧
    (e.picked (delivered noFiles 1 (utf8 "2020-01-02 x\n  A  1\n  B\n\n2020-01-01 x\n  A  2\n  B\n\n2020-01-01 y\n  A  2\n  B\n") (str "f"))).length = 2 := by
  decide +kernel

/-- There are such sorts. -/
theorem sortsByDate_mergeSort : SortsByDate (List.mergeSort (le := fun (a b : Transaction) => !b.date.before a.date)) := by
  intro ts
  refine ⟨List.mergeSort_perm _ _, ?_⟩
  refine (List.pairwise_mergeSort ?_ ?_ ts).imp ?_
  · intro a b c; simp only [Date.before, Bool.not_eq_true', decide_eq_false_iff_not]; omega
  · intro a b; simp only [Date.before, Bool.or_eq_true, Bool.not_eq_true', decide_eq_false_iff_not]; omega
  · intro a b h; simpa using h

/-! ### C51 accounts lists each used account path once, sorted -/

theorem addKey_spec {α : Type} [DecidableEq α] {s : List α} (hn : s.Nodup) (a : α) : (addKey s a).Nodup ∧ ∀ b, b ∈ addKey s a ↔ b ∈ s ∨ b = a := by
  unfold addKey
  by_cases h : a ∈ s
  · rw [if_pos (by simpa using h)]
    exact ⟨hn, fun b => ⟨Or.inl, fun hb => hb.elim id fun e => e ▸ h⟩⟩
  · rw [if_neg (by simpa using h)]
    refine ⟨List.nodup_append.2 ⟨hn, by simp, ?_⟩, fun b => by simp⟩
    intro b hb c hc
    rw [List.mem_singleton] at hc
    subst hc
    rintro rfl
    exact h hb

theorem addKeys_spec {α β : Type} [DecidableEq α] (g : β → α) (l : List β) : ∀ s : List α, s.Nodup →
    (l.foldl (fun s b => addKey s (g b)) s).Nodup ∧ ∀ a, a ∈ l.foldl (fun s b => addKey s (g b)) s ↔ a ∈ s ∨ ∃ b ∈ l, g b = a := by
  induction l with
  | nil => intro s hn; exact ⟨hn, by simp⟩
  | cons b l ih =>
    intro s hn
    obtain ⟨h1, h2⟩ := addKey_spec hn (g b)
    obtain ⟨h3, h4⟩ := ih _ h1
    refine ⟨h3, fun a => ?_⟩
    rw [List.foldl_cons, h4, h2]
    rw [@eq_comm _ a (g b)]
    simp [or_assoc]

/-- Replaying a handler that never fails, guarded by the date flags. -/
theorem dateChecked_replay {σ : Type} (e : Env) (f : σ → Transaction → σ) (H : Handlers σ) (h1 : H.th = some (e.dateChecked fun s t _ => (f s t, none)))
    (h2 : H.ph = none) (calls : List Call) : ∀ s s' : σ, H.replay calls s = (s', none) → s' = (e.ranged calls).foldl f s := by
  induction calls with
  | nil => intro s s' h; cases h; simp [Env.ranged, normals]
  | cons c calls ih =>
    intro s s' h
    rw [Handlers.replay] at h
    unfold Env.ranged
    rw [normals_cons, List.map_append, List.filter_append, List.foldl_append]
    cases c with
    | periodic pt p =>
      simp only [Handlers.call, h2, Step.andThen] at h
      rw [ih s s' h]
      simp [normals, Env.ranged]
    | normal t p =>
      simp only [Handlers.call, h1, Env.dateChecked] at h
      rcases hr : e.withinDateRange t with err | _ | _
      · simp only [hr, Step.andThen] at h; cases h
      · simp only [hr, Step.andThen] at h
        rw [ih s s' h]
        simp [normals, Env.ranged, Env.InRange, hr]
      · simp only [hr, Step.andThen] at h
        rw [ih _ s' h]
        simp [normals, Env.ranged, Env.InRange, hr]

theorem foldl_keys {α : Type} [DecidableEq α] (g : Transaction → List α) (ts : List Transaction) : ∀ s : List α, s.Nodup →
    (ts.foldl (fun s t => (g t).foldl (fun s a => addKey s a) s) s).Nodup ∧
    ∀ a, a ∈ ts.foldl (fun s t => (g t).foldl (fun s a => addKey s a) s) s ↔ a ∈ s ∨ ∃ t ∈ ts, a ∈ g t := by
  induction ts with
  | nil => intro s hn; exact ⟨hn, by simp⟩
  | cons t ts ih =>
    intro s hn
    obtain ⟨h1, h2⟩ := addKeys_spec (fun a => a) (g t) s hn
    obtain ⟨h3, h4⟩ := ih _ h1
    refine ⟨h3, fun a => ?_⟩
    rw [List.foldl_cons, h4, h2]
    simp [or_assoc]

/-- The accounts command prints, one per line and in ascending order, each account path of a posting of a transaction within
the date range, if there are no filters or some filter's pattern matches the path. -/
theorem C51_accounts [Unicode] (e : Env) (order : List Str → List Str) (ho : ∀ l, (order l).Perm l) (fs : FileSystem) (maxOpen : Nat)
    (bytes : List UInt8) (path text : Str) (h : accountsCmd e order fs maxOpen bytes path = .ok text) :
    ∃ L : List Str, L.Pairwise StrLt ∧ text = (L.map fun l => l ++ str "\n").flatten ∧
      ∀ a, a ∈ L ↔ (∃ t ∈ e.ranged (delivered fs maxOpen bytes path), ∃ p ∈ t.postings, p.accountPath = a) ∧
        (e.filters = [] ∨ ∃ f ∈ e.filters, f.regex a = true) := by
  unfold accountsCmd at h
  cases hj : runParse fs maxOpen bytes path e.accountsHandlers [] with
  | error f => rw [hj] at h; cases h
  | ok s =>
    rw [hj] at h
    cases h
    have hs := dateChecked_replay e (fun s (t : Transaction) => t.postings.foldl (fun s p => addKey s p.accountPath) s) e.accountsHandlers rfl rfl _ [] s (runParse_replay.1 hj).2
    have hk := foldl_keys (fun t : Transaction => t.postings.map Posting.accountPath) (e.ranged (delivered fs maxOpen bytes path)) [] (by simp)
    simp only [List.foldl_map] at hk
    rw [← hs] at hk
    have hmem : ∀ a, a ∈ s ↔ ∃ t ∈ e.ranged (delivered fs maxOpen bytes path), ∃ p ∈ t.postings, p.accountPath = a := by
      intro a; rw [hk.2]; simp
    refine ⟨e.accountsPrepare (order s), ?_, List.flatMap_def, ?_⟩
    · unfold Env.accountsPrepare
      have hn := (ho s).nodup_iff.2 hk.1
      split
      · exact sortStrings_strict hn
      · exact sortStrings_strict (hn.filter _)
    · intro a
      rw [← hmem]
      unfold Env.accountsPrepare
      by_cases hf : e.filters = []
      · rw [if_pos (by simp [hf]), (sortStrings_perm _).mem_iff, (ho s).mem_iff]
        simp [hf]
      · rw [if_neg (by simpa using hf), (sortStrings_perm _).mem_iff, List.mem_filter, (ho s).mem_iff]
        simp [hf]

/-- A journal with a repeated account, a filter and a date flag. -/
example :
    letI := asciiUnicode
    let j := utf8 "2020-01-02 x\n  B  1\n  A\n\n2020-01-01 x\n  B  2\n  C\n\n2021-01-01 y\n  D  2\n  B\n"
    (accountsCmd { endDate := str "2020-12-31" } List.reverse noFiles 1 j (str "f")).toOption = some (str "A\nB\nC\n") ∧
    (accountsCmd { filters := [{ regex := fun s => s == str "B" || s == str "D", ftype := .accountName }] } List.reverse noFiles 1 j (str "f")).toOption =
      some (str "B\nD\n") := by decide +kernel

/-! ### C52 payees lists each payee once, sorted -/

theorem compileArgs_spec [Unicode] (R : RegexEngine) (args : List Str) :
    (∃ rs, compileArgs R args = .ok rs ∧ args.map (fun a => R.compile (smartCase a)) = rs.map some) ∨
    ∃ a ∈ args, R.compile (smartCase a) = none ∧ compileArgs R args = .error (.err (.regexp (smartCase a))) := by
  induction args with
  | nil => exact Or.inl ⟨[], rfl, rfl⟩
  | cons a as ih =>
    rw [compileArgs]
    cases hc : R.compile (smartCase a) with
    | none => exact Or.inr ⟨a, by simp, hc, rfl⟩
    | some r =>
      rcases ih with ⟨rs, h1, h2⟩ | ⟨b, h1, h2, h3⟩
      · exact Or.inl ⟨r :: rs, by simp only [h1]; rfl, by simp [hc, h2]⟩
      · exact Or.inr ⟨b, by simp [h1], h2, by simp only [h3]; rfl⟩

/-- The arguments' patterns: case matters if and only if there is an upper case letter. -/
def PayeeMatch [Unicode] (R : RegexEngine) (args : List Str) (p : Str) : Prop :=
  ∃ a ∈ args, ∃ r, R.compile (if ∃ c ∈ a, Unicode.isUpper c = true then a else str "(?i)" ++ a) = some r ∧ r p = true

theorem smartCase_eq [U : Unicode] (a : Str) : smartCase a = if ∃ c ∈ a, U.isUpper c = true then a else str "(?i)" ++ a := by
  unfold smartCase containsUppercase
  by_cases h : ∃ c ∈ a, U.isUpper c = true
  · have : a.any U.isUpper = true := by simpa using h
    simp [this, h]
  · have : a.any U.isUpper = false := by simpa using h
    simp only [this, h, if_false, Bool.not_false, if_true]

/-- The payees command prints, one per line and in ascending order, each payee of a transaction within the date range, if
there are no arguments or some argument's pattern matches. -/
theorem C52_payees [Unicode] (e : Env) (R : RegexEngine) (args : List Str) (order : List Str → List Str) (ho : ∀ l, (order l).Perm l)
    (fs : FileSystem) (maxOpen : Nat) (bytes : List UInt8) (path text : Str) (h : payeesCmd e R args order fs maxOpen bytes path = .ok text) :
    ∃ L : List Str, L.Pairwise StrLt ∧ text = (L.map fun l => l ++ str "\n").flatten ∧
      ∀ a, a ∈ L ↔ (∃ t ∈ e.ranged (delivered fs maxOpen bytes path), t.payee = a) ∧ (args = [] ∨ PayeeMatch R args a) := by
  unfold payeesCmd at h
  cases hj : runParse fs maxOpen bytes path e.payeesHandlers [] with
  | error f => rw [hj] at h; cases h
  | ok s =>
    rw [hj] at h
    simp only at h
    have hs := dateChecked_replay e (fun s (t : Transaction) => addKey s t.payee) e.payeesHandlers rfl rfl _ [] s (runParse_replay.1 hj).2
    have hk := foldl_keys (fun t : Transaction => [t.payee]) (e.ranged (delivered fs maxOpen bytes path)) [] (by simp)
    simp only [List.foldl_cons, List.foldl_nil] at hk
    rw [← hs] at hk
    have hmem : ∀ a, a ∈ s ↔ ∃ t ∈ e.ranged (delivered fs maxOpen bytes path), t.payee = a := by
      intro a; rw [hk.2]; simp [eq_comm]
    have hn := (ho s).nodup_iff.2 hk.1
    unfold payeesPrepare at h
    by_cases ha : args = []
    · rw [if_pos (by simp [ha])] at h
      cases h
      refine ⟨sortStrings (order s), sortStrings_strict hn, List.flatMap_def, fun a => ?_⟩
      rw [(sortStrings_perm _).mem_iff, (ho s).mem_iff, hmem]
      simp [ha]
    · rw [if_neg (by simpa using ha)] at h
      rcases compileArgs_spec R args with ⟨rs, h1, h2⟩ | ⟨b, _, _, h3⟩
      · rw [h1] at h
        cases h
        refine ⟨sortStrings ((order s).filter fun p => rs.any fun r => r p), sortStrings_strict (hn.filter _), List.flatMap_def, fun a => ?_⟩
        rw [(sortStrings_perm _).mem_iff, List.mem_filter, (ho s).mem_iff, hmem]
        simp only [ha, false_or]
        refine and_congr_right fun _ => ?_
        rw [List.any_eq_true]
        unfold PayeeMatch
        simp only [← smartCase_eq]
        constructor
        · rintro ⟨r, hr, hra⟩
          have : some r ∈ args.map fun a => R.compile (smartCase a) := by rw [h2]; exact List.mem_map_of_mem hr
          obtain ⟨b, hb, hbr⟩ := List.mem_map.1 this
          exact ⟨b, hb, r, hbr, hra⟩
        · rintro ⟨b, hb, r, hbr, hra⟩
          have : some r ∈ rs.map some := by rw [← h2, ← hbr]; exact List.mem_map_of_mem hb
          obtain ⟨r', hr', he⟩ := List.mem_map.1 this
          cases he
          exact ⟨r, hr', hra⟩
      · rw [h3] at h
        cases h

/-- An argument that does not compile: no list. -/
theorem C52_bad_argument [Unicode] (e : Env) (R : RegexEngine) (args : List Str) (order : List Str → List Str)
    (fs : FileSystem) (maxOpen : Nat) (bytes : List UInt8) (path : Str)
    (hbad : ∃ a ∈ args, R.compile (if ∃ c ∈ a, Unicode.isUpper c = true then a else str "(?i)" ++ a) = none) :
    ∃ f, payeesCmd e R args order fs maxOpen bytes path = .error f := by
  obtain ⟨a, ha, hc⟩ := hbad
  rw [← smartCase_eq] at hc
  unfold payeesCmd
  cases hj : runParse fs maxOpen bytes path e.payeesHandlers [] with
  | error f => exact ⟨f, rfl⟩
  | ok s =>
    simp only
    unfold payeesPrepare
    rw [if_neg (by intro h0; have : args = [] := by simpa using h0
                   rw [this] at ha; cases ha)]
    rcases compileArgs_spec R args with ⟨rs, _, h2⟩ | ⟨b, _, _, h3⟩
    · exfalso
      have : none ∈ rs.map some := by rw [← h2, ← hc]; exact List.mem_map_of_mem ha
      simp at this
    · rw [h3]
      exact ⟨_, rfl⟩

/-- An engine for which patterns are literal texts. -/
example :
    letI := asciiUnicode
    let R : RegexEngine := { compile := fun pat => if pat = str "(" then none else some fun s => s == pat || str "(?i)" ++ s == pat }
    let j := utf8 "2020-01-02 x\n  B  1\n  A\n\n2020-01-01 y\n  B  2\n  C\n\n2021-01-01 x\n  D  2\n  B\n"
    (payeesCmd {} R [] List.reverse noFiles 1 j (str "f")).toOption = some (str "x\ny\n") ∧
    (payeesCmd {} R [str "y"] List.reverse noFiles 1 j (str "f")).toOption = some (str "y\n") := by decide +kernel

end Gledger
