import Verif.Props.LinearSplit
import Mathlib.Data.List.Perm.Basic
import Mathlib.Data.List.Forall2

/-! # Properties C25, C26, C27, C34 (frame part), C35: `split_df` and `build_lag_df` -/

set_option linter.unusedSectionVars false

namespace Mlp.Props
open Mlp Mlp.Splitter Mlp.Spec Mlp.Lemmas

/-! ## Selecting rows by mask -/

theorem pick_nil {β : Type} (keep : Nat → Bool) : pick ([] : List β) keep = [] := rfl

theorem pick_cons {β : Type} (a : β) (l : List β) (keep : Nat → Bool) :
    pick (a :: l) keep = (if keep 0 then [a] else []) ++ pick l (fun i => keep (i + 1)) := by
  unfold pick
  have e : List.range (a :: l).length = 0 :: (List.range l.length).map Nat.succ := by
    rw [List.length_cons, List.range_succ_eq_map]
  rw [e, List.filter_cons]
  have e2 : (List.map Nat.succ (List.range l.length)).filter keep =
      ((List.range l.length).filter fun i => keep (i + 1)).map Nat.succ := by
    rw [List.filter_map]; rfl
  rw [e2]
  split_ifs <;> simp [List.filterMap_map]

theorem pick_congr {β : Type} (l : List β) {k₁ k₂ : Nat → Bool} (h : ∀ i < l.length, k₁ i = k₂ i) :
    pick l k₁ = pick l k₂ := by
  unfold pick
  congr 1
  apply List.filter_congr
  intro i hi
  exact h i (by simpa using hi)

theorem maskSel_eq_pick {β : Type} (l : List β) (m : List Bool) (h : m.length = l.length) :
    maskSel l m = pick l fun i => decide (m[i]? = some true) := by
  induction l generalizing m with
  | nil => simp [maskSel, pick]
  | cons a l ih =>
    rcases m with _ | ⟨b, m⟩
    · simp at h
    · rw [pick_cons]
      have := ih m (by simpa using h)
      unfold maskSel at this ⊢
      cases b <;> simpa using this

theorem pick_length_add {β : Type} (l : List β) (k₁ k₂ k₃ : Nat → Bool)
    (h : ∀ i < l.length, (k₁ i && !k₂ i && !k₃ i) || (!k₁ i && k₂ i && !k₃ i) ||
      (!k₁ i && !k₂ i && k₃ i)) :
    (pick l k₁).length + (pick l k₂).length + (pick l k₃).length = l.length := by
  induction l generalizing k₁ k₂ k₃ with
  | nil => simp [pick]
  | cons a l ih =>
    have := ih (fun i => k₁ (i+1)) (fun i => k₂ (i+1)) (fun i => k₃ (i+1))
      (fun i hi => h (i+1) (by simpa using hi))
    have h0 := h 0 (by simp)
    rw [pick_cons, pick_cons, pick_cons]
    simp only [List.length_append, List.length_cons]
    revert h0
    cases k₁ 0 <;> cases k₂ 0 <;> cases k₃ 0 <;> simp <;> omega

theorem select_eq_pickRows {α : Type} {df : Frame α} (hwf : WellFormed df) {m : List Bool}
    (h : m.length = df.index.length) :
    df.select m = pickRows df fun i => decide (m[i]? = some true) := by
  unfold Frame.select pickRows
  rw [maskSel_eq_pick _ _ h]
  congr 1
  apply List.map_congr_left
  intro c hc
  rw [maskSel_eq_pick _ _ (by rw [h, hwf c hc])]

theorem pickRows_congr {α : Type} {df : Frame α} (hwf : WellFormed df) {k₁ k₂ : Nat → Bool}
    (h : ∀ i < df.index.length, k₁ i = k₂ i) : pickRows df k₁ = pickRows df k₂ := by
  unfold pickRows
  rw [pick_congr _ h]
  congr 1
  apply List.map_congr_left
  intro c hc
  rw [pick_congr _ (by rw [hwf c hc]; exact h)]

section
variable {K : Type} [Field K] [LinearOrder K] [IsStrictOrderedRing K] [FloorRing K]
variable (rnd : K → K) (perm : Option Str → Nat → List Nat) (df : Frame (Ext K))
variable (unique sorted : List (Option Str))

/-! ## The masks -/

theorem randMask_length {perm : Nat → List Nat} {n : Nat} {frac : K} {m : List Bool}
    (h : randMask rnd perm n frac = .ok m) : m.length = n := by
  unfold randMask at h
  simp only [bind_ok_iff, pyAssert_bind] at h
  obtain ⟨a, -, h⟩ := h
  split_ifs at h
  simp only [pure_eq_ok, Except.ok.injEq] at h
  rw [← h]; simp

theorem randomSplit_length {perm : Nat → List Nat} {α : Type} [DecidableEq α] {S : List (Option α)}
    {frac : K} {b : Bool} {m : List Bool}
    (h : randomSplit rnd perm S frac b = .ok m) : m.length = S.length := by
  cases b with
  | false => exact (C29_equal_values h).1
  | true =>
    rcases noNull_or S with ⟨vals, rfl⟩ | hn
    · unfold randomSplit at h
      rw [noNull_any, noNull_filterMap, pyAssert_bind] at h
      simp only [Bool.not_false, if_true] at h
      rw [randMask_length rnd h]; simp [noNull]
    · unfold randomSplit at h
      rw [pyAssert_bind, hn] at h; cases h

theorem orderedSplit_length {α : Type} [LinearOrder α] {S : List (Option α)}
    {frac : K} {s q : Bool} {m : List Bool}
    (h : orderedSplit rnd S frac s q = .ok m) : m.length = S.length := by
  rcases noNull_or S with ⟨vals, rfl⟩ | hn
  · unfold orderedSplit at h
    rw [noNull_any, noNull_filterMap] at h
    simp only [pyAssert_bind] at h
    split_ifs at h
    all_goals
      split at h
      · cases h
      · split_ifs at h <;> (cases h; simp [noNull])
  · unfold orderedSplit at h
    rw [pyAssert_bind, hn] at h; cases h

theorem linearSplit_length {S : List (Option (Ext K))}
    {frac : K} {s : Bool} {m : List Bool}
    (h : linearSplit rnd S frac s = .ok m) : m.length = S.length := by
  rcases noNull_or S with ⟨vals, rfl⟩ | hn
  · unfold linearSplit at h
    rw [noNull_any, noNull_filterMap] at h
    rw [pyAssert_bind, pyAssert_bind] at h
    split_ifs at h
    all_goals
      rw [bind_ok_iff] at h
      obtain ⟨ends, -, h⟩ := h
      simp only [pyAssert_bind] at h
      split at h
      · split_ifs at h
        simp only [pure_eq_ok, Except.ok.injEq] at h
        rw [← h]; simp [noNull]
      · cases h
  · unfold linearSplit at h
    rw [pyAssert_bind, hn] at h; cases h

theorem hasColumn_iff {α : Type} {df : Frame α} {f : Option Str} {c : List (Option α)} :
    HasColumn df f c ↔ df.column f = .ok c := by
  constructor
  · intro h
    cases h with
    | index => rfl
    | col name before after _ hc hb =>
      unfold Frame.column
      have : df.cols.find? (fun c => decide (c.1 = some name)) = some (some name, c) := by
        rw [hc, List.find?_append, List.find?_eq_none.2 (by simpa using hb)]
        simp
      simp [this]
  · intro h
    cases f with
    | none => unfold Frame.column at h; cases h; exact .index
    | some name =>
      unfold Frame.column at h
      simp only at h
      split at h
      · rename_i c' hc'
        cases h
        obtain ⟨h1, before, after, h2, h3⟩ := List.find?_eq_some_iff_append.1 hc'
        simp only [decide_eq_true_eq] at h1
        obtain ⟨a, b⟩ := c'
        simp only at h1
        subst h1
        exact .col name before after _ h2 (by simpa using h3)
      · cases h

theorem hasColumn_length {df : Frame (Ext K)} (hwf : WellFormed df) {f : Option Str}
    {c : List (Option (Ext K))} (h : HasColumn df f c) : c.length = df.index.length := by
  cases h with
  | index => rfl
  | col name before after _ hc hb => exact hwf (some name, c) (by rw [hc]; simp)

theorem places_iff {sp : SplitSpec K} {m : List Bool} :
    Places rnd perm df unique sorted sp m ↔ splitMask rnd perm df unique sorted sp = .ok m := by
  obtain ⟨f, ty, frac⟩ := sp
  constructor
  · intro h
    cases h with
    | random _ S _ _ hc h =>
      unfold splitMask
      rw [show splitterLib "random".toList = .ok .random from by decide +kernel, ok_bind,
        hasColumn_iff.1 hc, ok_bind]
      exact h
    | ordered _ S _ _ hc h =>
      unfold splitMask
      rw [show splitterLib "ordered".toList = .ok .ordered from by decide +kernel, ok_bind,
        hasColumn_iff.1 hc, ok_bind]
      exact h
    | linear _ S _ _ hc h =>
      unfold splitMask
      rw [show splitterLib "linear".toList = .ok .linear from by decide +kernel, ok_bind,
        hasColumn_iff.1 hc, ok_bind]
      exact h
  · intro h
    unfold splitMask at h
    simp only [bind_ok_iff] at h
    obtain ⟨kind, hk, S, hS, h⟩ := h
    rw [← hasColumn_iff] at hS
    unfold splitterLib at hk
    split_ifs at hk with h1 h2 h3 <;> cases hk
    · subst h1; exact .random _ S _ _ hS h
    · subst h2; exact .ordered _ S _ _ hS h
    · subst h3; exact .linear _ S _ _ hS h

theorem places_length (hwf : WellFormed df) {sp : SplitSpec K} {m : List Bool}
    (h : Places rnd perm df unique sorted sp m) : m.length = df.index.length := by
  cases h with
  | random _ S _ _ hc h => rw [randomSplit_length rnd h, hasColumn_length hwf hc]
  | ordered _ S _ _ hc h => rw [orderedSplit_length rnd h, hasColumn_length hwf hc]
  | linear _ S _ _ hc h => rw [linearSplit_length rnd h, hasColumn_length hwf hc]

/-! ## The loop -/

theorem foldlM_splitStep (splits : List (SplitSpec K)) (t e : List Bool) :
    splits.foldlM (splitStep rnd perm df unique sorted) (t, e) =
      (splits.mapM (splitMask rnd perm df unique sorted)).map fun ms =>
        (ms.foldl (List.zipWith fun a b => a && b) t,
          ms.foldl (List.zipWith fun a b => a && !b) e) := by
  induction splits generalizing t e with
  | nil => rfl
  | cons sp splits ih =>
    rw [List.foldlM_cons, List.mapM_cons]
    have hstep : splitStep rnd perm df unique sorted (t, e) sp =
        (splitMask rnd perm df unique sorted sp).map fun m =>
          (List.zipWith (fun a b => a && b) t m, List.zipWith (fun a b => a && !b) e m) := by
      unfold splitStep
      cases splitMask rnd perm df unique sorted sp <;> rfl
    rw [hstep]
    cases h : splitMask rnd perm df unique sorted sp with
    | error err => rfl
    | ok m =>
      simp only [Except.map, ok_bind]
      rw [ih (List.zipWith (fun a b => a && b) t m) (List.zipWith (fun a b => a && !b) e m)]
      cases splits.mapM (splitMask rnd perm df unique sorted) <;> rfl

theorem foldl_zipWith_get (g : Bool → Bool) (ms : List (List Bool)) (t : List Bool) (n : Nat)
    (ht : t.length = n) (hms : ∀ m ∈ ms, m.length = n) :
    (ms.foldl (List.zipWith fun a b => a && g b) t).length = n ∧
    ∀ i < n, ((ms.foldl (List.zipWith fun a b => a && g b) t)[i]? = some true ↔
      t[i]? = some true ∧ ∀ m ∈ ms, ∃ b, m[i]? = some b ∧ g b = true) := by
  induction ms generalizing t with
  | nil => simp [ht]
  | cons m ms ih =>
    have hm := hms m (by simp)
    have := ih (List.zipWith (fun a b => a && g b) t m) (by simp [ht, hm])
      (fun m' h => hms m' (by simp [h]))
    refine ⟨this.1, fun i hi => ?_⟩
    rw [List.foldl_cons, this.2 i hi]
    have h1 : i < t.length := by omega
    have h2 : i < m.length := by omega
    simp only [List.getElem?_zipWith, List.getElem?_eq_getElem h1, List.getElem?_eq_getElem h2,
      List.forall_mem_cons]
    simp [and_assoc]

/-- Masks give the same side to a row when every split does. -/
def allTrue (ms : List (List Bool)) (i : Nat) : Bool := ms.all fun m => decide (m[i]? = some true)

/-- Every split puts the row in test. -/
def allFalse (ms : List (List Bool)) (i : Nat) : Bool := ms.all fun m => decide (m[i]? = some false)

theorem splitDf_ok (hwf : WellFormed df) {splits : List (SplitSpec K)} (hs : splits ≠ [])
    (hi : df.index ≠ []) (hr : ∀ c ∈ df.cols, c.1 ≠ none) {ms : List (List Bool)}
    (hms : List.Forall₂ (Places rnd perm df unique sorted) splits ms) :
    splitDf rnd perm df splits unique sorted =
      .ok (pickRows df (allTrue ms), pickRows df (allFalse ms),
        pickRows df fun i => !allTrue ms i && !allFalse ms i) := by
  have hlen : ∀ m ∈ ms, m.length = df.index.length := by
    intro m hm
    clear hs
    induction hms with
    | nil => simp at hm
    | cons h _ ih =>
      rcases List.mem_cons.1 hm with rfl | hm
      · exact places_length rnd perm df unique sorted hwf h
      · exact ih hm
  have hne : ms ≠ [] := by
    rintro rfl
    cases hms; exact hs rfl
  have hmap : splits.mapM (splitMask rnd perm df unique sorted) = .ok ms := by
    rw [mapM_ok_iff]
    exact hms.imp fun _ _ h => (places_iff ..).1 h
  have ht := foldl_zipWith_get (fun b => b) ms (df.index.map fun _ => true) df.index.length
    (by simp) hlen
  have he := foldl_zipWith_get (fun b => !b) ms (df.index.map fun _ => true) df.index.length
    (by simp) hlen
  unfold splitDf
  simp only [foldlM_splitStep, hmap]
  set T := ms.foldl (List.zipWith fun a b => a && b) (df.index.map fun _ => true) with hT
  set E := ms.foldl (List.zipWith fun a b => a && !b) (df.index.map fun _ => true) with hE
  have g1 : ∀ i < df.index.length, (T[i]? = some true ↔ allTrue ms i = true) := by
    intro i hi
    rw [ht.2 i hi]
    simp [allTrue, hi]
  have g2 : ∀ i < df.index.length, (E[i]? = some true ↔ allFalse ms i = true) := by
    intro i hi
    rw [he.2 i hi]
    simp only [List.getElem?_map, List.getElem?_eq_getElem hi, Option.map_some, allFalse,
      List.all_eq_true, decide_eq_true_eq, true_and, Bool.not_eq_eq_eq_not, Bool.not_true]
    constructor
    · intro h m hm
      obtain ⟨b, hb, rfl⟩ := h m hm
      exact hb
    · intro h m hm
      exact ⟨false, h m hm, rfl⟩
  have hdisj : ∀ i, ¬ (allTrue ms i = true ∧ allFalse ms i = true) := by
    rintro i ⟨a, b⟩
    obtain ⟨m, ms', rfl⟩ := List.exists_cons_of_ne_nil hne
    simp only [allTrue, allFalse, List.all_cons, Bool.and_eq_true, decide_eq_true_eq] at a b
    rw [a.1] at b; cases b.1
  have hany : ((List.zipWith (fun a b => a && b) T E).any id) = false := by
    rw [List.any_eq_false]
    intro x hx hc
    simp only [id] at hc
    subst hc
    obtain ⟨i, hi, he'⟩ := List.getElem_of_mem hx
    rw [List.length_zipWith] at hi
    rw [List.getElem_zipWith, Bool.and_eq_true] at he'
    have hiT : i < T.length := by omega
    have hiE : i < E.length := by omega
    refine hdisj i ⟨(g1 i (by omega)).1 ?_, (g2 i (by omega)).1 ?_⟩
    · rw [List.getElem?_eq_getElem hiT, he'.1]
    · rw [List.getElem?_eq_getElem hiE, he'.2]
  have sT : df.select T = pickRows df (allTrue ms) := by
    rw [select_eq_pickRows hwf ht.1]
    apply pickRows_congr hwf
    intro i hi
    have := g1 i hi
    cases h : allTrue ms i <;> simp_all
  have sE : df.select E = pickRows df (allFalse ms) := by
    rw [select_eq_pickRows hwf he.1]
    apply pickRows_congr hwf
    intro i hi
    have := g2 i hi
    cases h : allFalse ms i <;> simp_all
  have sU : df.select (List.zipWith (fun a b => !(a || b)) T E) =
      pickRows df (fun i => !allTrue ms i && !allFalse ms i) := by
    rw [select_eq_pickRows hwf (by simp [ht.1, he.1])]
    apply pickRows_congr hwf
    intro i hi
    have hiT : i < T.length := by rw [ht.1]; exact hi
    have hiE : i < E.length := by rw [he.1]; exact hi
    have a := g1 i hi
    have b := g2 i hi
    rw [List.getElem?_eq_getElem hiT] at a
    rw [List.getElem?_eq_getElem hiE] at b
    simp only [List.getElem?_zipWith, List.getElem?_eq_getElem hiT, List.getElem?_eq_getElem hiE]
    simp only [Option.some.injEq] at a b ⊢
    cases h1 : allTrue ms i <;> cases h2 : allFalse ms i <;> simp_all
  have hcnt : (pickRows df (allTrue ms)).index.length + (pickRows df (allFalse ms)).index.length +
      (pickRows df (fun i => !allTrue ms i && !allFalse ms i)).index.length = df.index.length := by
    apply pick_length_add
    intro i _
    have := hdisj i
    cases h1 : allTrue ms i <;> cases h2 : allFalse ms i <;> simp_all
  have hres : (df.cols.any fun c => c.1.isNone) = false := by
    rw [List.any_eq_false]
    intro c hc
    have := hr c hc
    cases h : c.1 <;> simp_all
  have c1 : 0 < splits.length := List.length_pos_iff.2 hs
  have c2 : 0 < df.index.length := List.length_pos_iff.2 hi
  simp only [Except.map, ok_bind, ← hT, ← hE, hany, sT, sE, sU, hcnt, hres, c1, c2, pyAssert_bind,
    decide_true, Bool.not_false, if_true, pure_eq_ok]

/-- The result of `split_df` is determined by the masks of the column splits. -/
theorem splitDf_iff (hwf : WellFormed df) (splits : List (SplitSpec K))
    (r : Frame (Ext K) × Frame (Ext K) × Frame (Ext K)) :
    splitDf rnd perm df splits unique sorted = .ok r ↔
      splits ≠ [] ∧ df.index ≠ [] ∧ (∀ c ∈ df.cols, c.1 ≠ none) ∧
      ∃ ms, List.Forall₂ (Places rnd perm df unique sorted) splits ms ∧
        r = (pickRows df (allTrue ms), pickRows df (allFalse ms),
          pickRows df fun i => !allTrue ms i && !allFalse ms i) := by
  constructor
  · intro h
    have h' := h
    unfold splitDf at h
    simp only [pyAssert_bind] at h
    split_ifs at h with h1 h2 h3
    have hs : splits ≠ [] := by rintro rfl; simp at h1
    have hi : df.index ≠ [] := by intro e; rw [e] at h2; simp at h2
    have hr : ∀ c ∈ df.cols, c.1 ≠ none := by
      intro c hc e
      simp only [Bool.not_eq_true', List.any_eq_false] at h3
      exact h3 c hc (by simp [e])
    refine ⟨hs, hi, hr, ?_⟩
    simp only [foldlM_splitStep] at h
    cases hm : splits.mapM (splitMask rnd perm df unique sorted) with
    | error e => rw [hm] at h; cases h
    | ok ms =>
      have hms : List.Forall₂ (Places rnd perm df unique sorted) splits ms :=
        ((mapM_ok_iff _ _ _).1 hm).imp fun _ _ h => (places_iff ..).2 h
      refine ⟨ms, hms, ?_⟩
      rw [splitDf_ok rnd perm df unique sorted hwf hs hi hr hms] at h'
      exact (Except.ok.inj h').symm
  · rintro ⟨hs, hi, hr, ms, hms, rfl⟩
    exact splitDf_ok rnd perm df unique sorted hwf hs hi hr hms

variable {rnd perm df unique sorted}

/-- C25: `split_df` assigns every row of the frame to exactly one side, and the three frames returned
are the rows of their side in the original order with all their columns; the row counts add up. -/
theorem C25_partition (hwf : WellFormed df) {splits : List (SplitSpec K)}
    {train test unused : Frame (Ext K)}
    (h : splitDf rnd perm df splits unique sorted = .ok (train, test, unused)) :
    (∃ side : Nat → Side,
      train = pickRows df (fun i => decide (side i = .train)) ∧
      test = pickRows df (fun i => decide (side i = .test)) ∧
      unused = pickRows df (fun i => decide (side i = .unused))) ∧
    train.index.length + test.index.length + unused.index.length = df.index.length := by
  obtain ⟨hs, hi, hr, ms, hms, e⟩ := (splitDf_iff rnd perm df unique sorted hwf _ _).1 h
  have hne : ms ≠ [] := by
    rintro rfl
    cases hms; exact hs rfl
  have hdisj : ∀ i, ¬ (allTrue ms i = true ∧ allFalse ms i = true) := by
    rintro i ⟨a, b⟩
    obtain ⟨m, ms', rfl⟩ := List.exists_cons_of_ne_nil hne
    simp only [allTrue, allFalse, List.all_cons, Bool.and_eq_true, decide_eq_true_eq] at a b
    rw [a.1] at b; cases b.1
  simp only [Prod.mk.injEq] at e
  obtain ⟨rfl, rfl, rfl⟩ := e
  constructor
  · refine ⟨fun i => if allTrue ms i then .train else if allFalse ms i then .test else .unused,
      ?_, ?_, ?_⟩ <;> apply pickRows_congr hwf <;> intro i _ <;> have := hdisj i <;>
      cases h1 : allTrue ms i <;> cases h2 : allFalse ms i <;> simp_all
  · apply pick_length_add
    intro i _
    have := hdisj i
    cases h1 : allTrue ms i <;> cases h2 : allFalse ms i <;> simp_all

/-- C25: `split_df` succeeds whenever every column split does: no internal assertion can fail on a
non-empty frame without a column called `INDEX`. -/
theorem C25_total (hwf : WellFormed df) {splits : List (SplitSpec K)} (hs : splits ≠ [])
    (hi : df.index ≠ []) (hr : ∀ c ∈ df.cols, c.1 ≠ none)
    (h : ∀ sp ∈ splits, ∃ m, Places rnd perm df unique sorted sp m) :
    ∃ r, splitDf rnd perm df splits unique sorted = .ok r := by
  have : ∃ ms, List.Forall₂ (Places rnd perm df unique sorted) splits ms := by
    clear hs
    induction splits with
    | nil => exact ⟨[], .nil⟩
    | cons sp splits ih =>
      obtain ⟨m, hm⟩ := h sp (by simp)
      obtain ⟨ms, hms⟩ := ih fun s hs => h s (by simp [hs])
      exact ⟨m :: ms, .cons hm hms⟩
  obtain ⟨ms, hms⟩ := this
  exact ⟨_, splitDf_ok rnd perm df unique sorted hwf hs hi hr hms⟩

/-- C26: with `ms` the masks the column splits return, train is the rows that every mask puts in
train, test the rows that no mask puts in train, and unused the rest. -/
theorem C26_conjunction (hwf : WellFormed df) {splits : List (SplitSpec K)}
    {train test unused : Frame (Ext K)}
    (h : splitDf rnd perm df splits unique sorted = .ok (train, test, unused)) :
    ∃ ms, List.Forall₂ (fun sp m => Places rnd perm df unique sorted sp m ∧
        m.length = df.index.length) splits ms ∧
      train = pickRows df (fun i => decide (∀ m ∈ ms, m[i]? = some true)) ∧
      test = pickRows df (fun i => decide (∀ m ∈ ms, m[i]? = some false)) ∧
      unused = pickRows df (fun i => decide ((∃ m ∈ ms, m[i]? = some true) ∧
        ∃ m ∈ ms, m[i]? = some false)) := by
  obtain ⟨hs, hi, hr, ms, hms, e⟩ := (splitDf_iff rnd perm df unique sorted hwf _ _).1 h
  simp only [Prod.mk.injEq] at e
  obtain ⟨rfl, rfl, rfl⟩ := e
  have hlen : ∀ m ∈ ms, m.length = df.index.length := by
    intro m hm
    clear hs h
    induction hms with
    | nil => simp at hm
    | cons h _ ih =>
      rcases List.mem_cons.1 hm with rfl | hm
      · exact places_length rnd perm df unique sorted hwf h
      · exact ih hm
  refine ⟨ms, hms.imp fun _ _ h => ⟨h, places_length rnd perm df unique sorted hwf h⟩, ?_, ?_, ?_⟩
  · apply pickRows_congr hwf; intro i _; rw [Bool.eq_iff_iff]; simp [allTrue]
  · apply pickRows_congr hwf; intro i _; rw [Bool.eq_iff_iff]; simp [allFalse]
  · apply pickRows_congr hwf; intro i hi
    rw [Bool.eq_iff_iff]
    have hb : ∀ m ∈ ms, (m[i]? ≠ some true ↔ m[i]? = some false) := by
      intro m hm
      have : i < m.length := by rw [hlen m hm]; exact hi
      rw [List.getElem?_eq_getElem this]
      cases m[i] <;> simp
    simp only [allTrue, allFalse, Bool.and_eq_true, Bool.not_eq_true', List.all_eq_false,
      decide_eq_true_eq]
    constructor
    · rintro ⟨⟨m, hm, h1⟩, ⟨m', hm', h2⟩⟩
      refine ⟨⟨m', hm', ?_⟩, ⟨m, hm, (hb m hm).1 h1⟩⟩
      by_contra hc
      exact h2 ((hb m' hm').1 hc)
    · rintro ⟨⟨m, hm, h1⟩, ⟨m', hm', h2⟩⟩
      exact ⟨⟨m', hm', (hb m' hm').2 h2⟩, ⟨m, hm, by rw [h1]; simp⟩⟩

/-- C26: the order of the entries of `splits` does not matter. -/
theorem C26_order_independent (hwf : WellFormed df) {splits splits' : List (SplitSpec K)}
    (hp : splits.Perm splits') {r : Frame (Ext K) × Frame (Ext K) × Frame (Ext K)} :
    splitDf rnd perm df splits unique sorted = .ok r ↔
      splitDf rnd perm df splits' unique sorted = .ok r := by
  have key : ∀ {s s' : List (SplitSpec K)}, s.Perm s' →
      splitDf rnd perm df s unique sorted = .ok r → splitDf rnd perm df s' unique sorted = .ok r := by
    intro s s' hp h
    rw [splitDf_iff rnd perm df unique sorted hwf] at h ⊢
    obtain ⟨hs, hi, hr, ms, hms, e⟩ := h
    obtain ⟨ms', h1, h2⟩ := List.perm_comp_forall₂ hp.symm hms
    have e1 : ∀ i, allTrue ms' i = allTrue ms i := by
      intro i; rw [Bool.eq_iff_iff]; simp [allTrue, h2.mem_iff]
    have e2 : ∀ i, allFalse ms' i = allFalse ms i := by
      intro i; rw [Bool.eq_iff_iff]; simp [allFalse, h2.mem_iff]
    refine ⟨?_, hi, hr, ms', h1, ?_⟩
    · rintro rfl
      exact hs (List.Perm.eq_nil hp)
    · rw [e]
      have f1 : allTrue ms' = allTrue ms := funext e1
      have f2 : allFalse ms' = allFalse ms := funext e2
      rw [f1, f2]
  exact ⟨key hp, key hp.symm⟩

/-- C27: with a single split nothing is unused; train is the rows its mask marks, test the others. -/
theorem C27_single (hwf : WellFormed df) {sp : SplitSpec K} {train test unused : Frame (Ext K)}
    (h : splitDf rnd perm df [sp] unique sorted = .ok (train, test, unused)) :
    ∃ m, Places rnd perm df unique sorted sp m ∧ m.length = df.index.length ∧
      train = pickRows df (fun i => decide (m[i]? = some true)) ∧
      test = pickRows df (fun i => !decide (m[i]? = some true)) ∧
      unused.index = [] ∧ ∀ c ∈ unused.cols, c.2 = [] := by
  obtain ⟨ms, hms, e1, e2, e3⟩ := C26_conjunction hwf h
  cases hms with
  | @cons _ m _ _ hm hnil =>
    cases hnil
    have hbool : ∀ i < df.index.length, (m[i]? = some true ∨ m[i]? = some false) := by
      intro i hi
      have : i < m.length := by rw [hm.2]; exact hi
      rw [List.getElem?_eq_getElem this]
      cases m[i] <;> simp
    refine ⟨m, hm.1, hm.2, ?_, ?_, ?_⟩
    · rw [e1]; apply pickRows_congr hwf; intro i _; simp
    · rw [e2]; apply pickRows_congr hwf; intro i hi
      rcases hbool i hi with h | h <;> simp [h]
    · have : unused = pickRows df (fun _ => false) := by
        rw [e3]; apply pickRows_congr hwf; intro i hi
        rcases hbool i hi with h | h <;> simp [h]
      rw [this]
      refine ⟨by simp [pickRows, pick], ?_⟩
      intro c hc
      simp only [pickRows, List.mem_map] at hc
      obtain ⟨c', -, rfl⟩ := hc
      simp [pick]

/-! ## Rejections -/

/-- C34: `split_df` rejects empty splits, an empty frame and a column called `INDEX`. -/
theorem C34_split_df_assert (splits : List (SplitSpec K))
    (h : splits = [] ∨ df.index = [] ∨ ∃ c ∈ df.cols, c.1 = none) :
    splitDf rnd perm df splits unique sorted = .error .assertion := by
  unfold splitDf
  simp only [pyAssert_bind]
  split_ifs with h1 h2 h3
  · exfalso
    rcases h with rfl | h | ⟨c, hc, e⟩
    · simp at h1
    · rw [h] at h2; simp at h2
    · simp only [Bool.not_eq_true', List.any_eq_false] at h3
      exact h3 c hc (by simp [e])
  all_goals rfl

/-- C34: the first column split that fails makes `split_df` fail with the same error. -/
theorem C34_split_df_propagates {l₁ l₂ : List (SplitSpec K)} {sp : SplitSpec K} {err : PyErr}
    (hi : df.index ≠ []) (hr : ∀ c ∈ df.cols, c.1 ≠ none)
    (h₁ : ∀ s ∈ l₁, ∃ m, Places rnd perm df unique sorted s m)
    (h : splitMask rnd perm df unique sorted sp = .error err) :
    splitDf rnd perm df (l₁ ++ sp :: l₂) unique sorted = .error err := by
  have hm := mapM_error (splitMask rnd perm df unique sorted) l₁ sp l₂ err
    (fun b hb => by
      obtain ⟨m, hm⟩ := h₁ b hb
      exact ⟨m, (places_iff ..).1 hm⟩) h
  have hres : (df.cols.any fun c => c.1.isNone) = false := by
    rw [List.any_eq_false]
    intro c hc
    have := hr c hc
    cases h : c.1 <;> simp_all
  have c1 : 0 < (l₁ ++ sp :: l₂).length := by simp
  have c2 : 0 < df.index.length := List.length_pos_iff.2 hi
  unfold splitDf
  simp only [foldlM_splitStep, hm, c1, c2, hres, pyAssert_bind, decide_true, Bool.not_false, if_true]
  rfl

/-- C34: an unknown split type or, with a known type, an unknown column is a `KeyError`. -/
theorem C34_split_df_key_error {l₁ l₂ : List (SplitSpec K)} {f : Option Str} {ty : Str} {frac : K}
    (hi : df.index ≠ []) (hr : ∀ c ∈ df.cols, c.1 ≠ none)
    (h₁ : ∀ s ∈ l₁, ∃ m, Places rnd perm df unique sorted s m)
    (h : (ty ≠ "random".toList ∧ ty ≠ "ordered".toList ∧ ty ≠ "linear".toList) ∨
      ∃ name, f = some name ∧ ∀ c ∈ df.cols, c.1 ≠ some name) :
    splitDf rnd perm df (l₁ ++ (f, ty, frac) :: l₂) unique sorted = .error .keyError := by
  apply C34_split_df_propagates hi hr h₁
  unfold splitMask
  rcases h with ⟨a, b, c⟩ | ⟨name, rfl, hc⟩
  · unfold splitterLib
    simp only [if_neg a, if_neg b, if_neg c, error_bind]
  · have hcol : df.column (some name) = .error .keyError := by
      unfold Frame.column
      have : df.cols.find? (fun c => decide (c.1 = some name)) = none := by
        rw [List.find?_eq_none]; simpa using hc
      simp [this]
    simp only [hcol]
    cases hk : splitterLib ty with
    | error e =>
      have : e = .keyError := by
        unfold splitterLib at hk; split_ifs at hk; cases hk; rfl
      subst this; rfl
    | ok k => rfl

/-- C27/C28: the default split of a frame whose index has no nulls and no repeated labels: nothing is
unused and train has `frac * len(df)` rows, rounded up. -/
theorem C27_default_split (hwf : WellFormed df) (hrnd : IsRounding rnd) {vals : List (Ext K)}
    (hv : df.index = noNull vals) (hnd : vals.Nodup) (hne : vals ≠ [])
    (hr : ∀ c ∈ df.cols, c.1 ≠ none) (hp : IsPerm (perm none vals.length) vals.length) {frac : K}
    (h0 : 0 ≤ frac) (h1 : frac ≤ 1) :
    ∃ train test unused,
      splitDf rnd perm df (defaultSplit frac) unique sorted = .ok (train, test, unused) ∧
      (train.index.length : Int) = ⌈rnd (frac * vals.length)⌉ ∧
      train.index.length + test.index.length = vals.length ∧ unused.index = [] := by
  have hcard : vals.toFinset.card = vals.length := List.toFinset_card_of_nodup hnd
  obtain ⟨T, hT, hTc, hsplit⟩ := C29_random_split hrnd (perm := perm none) hne
    (by rw [hcard]; exact hp) h0 h1
  have hpl : Places rnd perm df unique sorted (none, "random".toList, frac)
      (vals.map fun v => decide (v ∈ T)) := by
    refine .random none df.index frac _ .index ?_
    rw [hv]
    cases hq : decide ((none : Option Str) ∈ unique) with
    | false => exact hsplit
    | true => rw [C30_assume_unique hrnd hnd hp frac]; exact hsplit
  have hidx : df.index ≠ [] := by rw [hv]; simpa [noNull] using hne
  obtain ⟨⟨train, test, unused⟩, hok⟩ := C25_total (splits := defaultSplit frac) hwf
    (by simp [defaultSplit]) hidx hr (by
      intro sp hsp
      simp only [defaultSplit, List.mem_singleton] at hsp
      subst hsp; exact ⟨_, hpl⟩)
  obtain ⟨m, hm, hml, etr, ete, eun, -⟩ := C27_single hwf hok
  have hmm : m = vals.map fun v => decide (v ∈ T) := by
    have a := (places_iff ..).1 hm
    have b := (places_iff ..).1 hpl
    rw [a] at b; exact Except.ok.inj b
  obtain ⟨-, hsum⟩ := C25_partition hwf hok
  refine ⟨train, test, unused, hok, ?_, ?_, eun⟩
  · rw [hcard] at hTc
    rw [← hTc, etr]
    have : ((pickRows df fun i => decide (m[i]? = some true)).index.length) =
        (vals.filter fun v => decide (v ∈ T)).length := by
      show (pick df.index _).length = _
      rw [← maskSel_eq_pick _ _ hml, hv, hmm]
      unfold maskSel noNull
      rw [List.zip_map', List.length_map, List.filter_map, List.length_map]
      rfl
    rw [this, ← List.toFinset_card_of_nodup (hnd.filter _)]
    congr 2
    ext a
    simp only [List.toFinset_filter, decide_eq_true_eq, Finset.mem_filter, List.mem_toFinset]
    exact ⟨fun h => h.2, fun h => ⟨by simpa using hT h, h⟩⟩
  · rw [eun] at hsum
    simp only [List.length_nil, add_zero] at hsum
    rw [hsum, hv]; simp [noNull]

end

/-- A frame with four rows, index `0..3` and one column, for the examples. -/
def exFrame : Frame (Ext ℚ) :=
  ⟨noNull (finiteVals [0, 1, 2, 3]), [(some "a".toList, noNull (finiteVals [7, 5, 7, 9]))]⟩

example : WellFormed exFrame := by
  intro c hc
  simp only [exFrame, List.mem_singleton] at hc
  subst hc; decide

instance : DecidableEq (Frame (Ext ℚ)) := fun a b =>
  decidable_of_iff (a.index = b.index ∧ a.cols = b.cols) (by cases a; cases b; simp)

example : splitDf (K := ℚ) id (fun _ _ => [2, 0, 1, 3]) exFrame
    [(none, "random".toList, 1/2), (some "a".toList, "linear".toList, 1/4)] =
    .ok (⟨[], [(some "a".toList, [])]⟩,
      ⟨noNull (finiteVals [3]), [(some "a".toList, noNull (finiteVals [9]))]⟩,
      ⟨noNull (finiteVals [0, 1, 2]), [(some "a".toList, noNull (finiteVals [7, 5, 7]))]⟩) := by
  decide +kernel

/-! ## `build_lag_df` -/

/-- C35: `build_lag_df` never returns.  It raises `TypeError` when all requested features are
columns, `KeyError` otherwise. -/
theorem C35_build_lag_df {α : Type} (df : Frame α) (nLags stride : Int) (features : Option (List Str)) :
    buildLagDf df nLags stride features =
      if (∀ f ∈ features.getD [], ∃ c ∈ df.cols, c.1 = some f) then .error .typeError
      else .error .keyError := by
  have hcol : ∀ f, (∃ c ∈ df.cols, c.1 = some f) → ∃ c, df.column (some f) = .ok c := by
    rintro f ⟨c, hc, e⟩
    unfold Frame.column
    cases hf : df.cols.find? (fun c => decide (c.1 = some f)) with
    | some c' => exact ⟨c'.2, by simp [hf]⟩
    | none =>
      rw [List.find?_eq_none] at hf
      exact absurd (by simpa using e) (hf c hc)
  have hnocol : ∀ f, ¬ (∃ c ∈ df.cols, c.1 = some f) → df.column (some f) = .error .keyError := by
    intro f hf
    unfold Frame.column
    have : df.cols.find? (fun c => decide (c.1 = some f)) = none := by
      rw [List.find?_eq_none]
      intro c hc h
      exact hf ⟨c, hc, by simpa using h⟩
    simp [this]
  unfold buildLagDf lagFrame
  cases features with
  | none => simp; rfl
  | some fs =>
    simp only [Option.getD_some]
    have key : (∀ f ∈ fs, ∃ c ∈ df.cols, c.1 = some f) →
        ∃ r, (fs.mapM fun f => (do return (some f, ← df.column (some f)) :
          Py (Option Str × List (Option α)))) = .ok r := by
      intro h
      induction fs with
      | nil => exact ⟨[], rfl⟩
      | cons f fs ih =>
        obtain ⟨c, hc⟩ := hcol f (h f (by simp))
        obtain ⟨r, hr⟩ := ih fun g hg => h g (by simp [hg])
        refine ⟨(some f, c) :: r, ?_⟩
        rw [List.mapM_cons, hr, hc]; rfl
    have key2 : ¬ (∀ f ∈ fs, ∃ c ∈ df.cols, c.1 = some f) →
        (fs.mapM fun f => (do return (some f, ← df.column (some f)) :
          Py (Option Str × List (Option α)))) = .error .keyError := by
      clear key
      intro h
      induction fs with
      | nil => simp at h
      | cons f fs ih =>
        rw [List.mapM_cons]
        by_cases hf : ∃ c ∈ df.cols, c.1 = some f
        · obtain ⟨c, hc⟩ := hcol f hf
          rw [ih (fun hall => h (by
            intro g hg
            rcases List.mem_cons.1 hg with rfl | hg
            · exact hf
            · exact hall g hg)), hc]
          rfl
        · rw [hnocol f hf]; rfl
    split_ifs with h
    · obtain ⟨r, hr⟩ := key h
      simp only [hr, ok_bind]; rfl
    · simp only [key2 h, error_bind]

example : buildLagDf exFrame 3 1 (some ["a".toList]) = .error .typeError := by
  rw [C35_build_lag_df]; exact if_pos (by simp [exFrame])

/-- The value `k` rows above row `i` of a column (below it for a negative `k`), missing outside the column. -/
def rowsAbove {α : Type} (col : List (Option α)) (k : Int) (i : Nat) : Option α :=
  if 0 ≤ (i : Int) - k then col.getD ((i : Int) - k).toNat none else none

theorem shiftCol_spec {α : Type} (k : Int) (col : List (Option α)) :
    shiftCol k col = (List.range col.length).map (rowsAbove col k) := by
  apply List.ext_getElem?
  intro i
  unfold shiftCol
  by_cases hk : 0 ≤ k
  · rw [if_pos hk, List.getElem?_take]
    by_cases hi : i < col.length
    · rw [if_pos hi, List.getElem?_map, List.getElem?_range hi, Option.map_some]
      unfold rowsAbove
      by_cases hik : i < k.toNat
      · rw [List.getElem?_append_left (by simpa using hik), List.getElem?_replicate, if_pos hik, if_neg (by omega)]
      · rw [List.getElem?_append_right (by simpa using hik), List.length_replicate, if_pos (by omega),
          List.getD_eq_getElem?_getD]
        have e : (↑i - k).toNat = i - k.toNat := by omega
        rw [e, List.getElem?_eq_getElem (by omega)]
        rfl
    · rw [if_neg hi, List.getElem?_eq_none (by simpa using hi)]
  · rw [if_neg hk, List.getElem?_take]
    by_cases hi : i < col.length
    · rw [if_pos hi, List.getElem?_map, List.getElem?_range hi, Option.map_some]
      unfold rowsAbove
      rw [if_pos (by omega)]
      have e : ((i : Int) - k).toNat = (-k).toNat + i := by omega
      rw [e]
      by_cases hik : (-k).toNat + i < col.length
      · rw [List.getElem?_append_left (by rw [List.length_drop]; omega), List.getElem?_drop,
          List.getD_eq_getElem?_getD, List.getElem?_eq_getElem hik]
        rfl
      · rw [List.getElem?_append_right (by rw [List.length_drop]; omega), List.getElem?_replicate,
          if_pos (by rw [List.length_drop]; omega), List.getD_eq_getElem?_getD, List.getElem?_eq_none (by omega)]
        rfl
    · rw [if_neg hi, List.getElem?_eq_none (by simpa using hi)]

/-- C35: what `build_lag_df` has computed when line 64 fails.  It is the frame that its documentation describes: every column at
lag 0 and, for each lag `k` in `1, ..., n_lags - 1` and each requested feature, a column whose row `i` is row `i - stride * k` of
that feature, missing where there is no such row. -/
theorem C35_lag_frame {α : Type} (df : Frame α) (hd : (df.cols.map Prod.fst).Nodup) (nLags stride : Int)
    (features : Option (List Str)) (hf : ∀ f ∈ features.getD [], ∃ c ∈ df.cols, c.1 = some f) :
    ∃ all, lagFrame df nLags stride features = .ok all ∧
      all.length = df.cols.length + (nLags.toNat - 1) * (features.map List.length).getD df.cols.length ∧
      ∀ name (k : Nat) col, ((name, k), col) ∈ all ↔
        (k = 0 ∧ (name, col) ∈ df.cols) ∨
        (1 ≤ k ∧ (k : Int) < nLags ∧ ∃ src, (name, src) ∈ df.cols ∧
          (∀ fs, features = some fs → ∃ f ∈ fs, name = some f) ∧
          col = (List.range src.length).map (rowsAbove src (stride * k))) := by
  have hsub : ∃ sub, (match features with
      | none => pure df.cols
      | some fs => fs.mapM fun f => do return (some f, ← df.column (some f)) :
        Py (List (Option Str × List (Option α)))) = .ok sub ∧
      sub.length = (features.map List.length).getD df.cols.length ∧
      ∀ name src, (name, src) ∈ sub ↔ (name, src) ∈ df.cols ∧ (∀ fs, features = some fs → ∃ f ∈ fs, name = some f) := by
    cases features with
    | none => exact ⟨df.cols, rfl, rfl, by simp⟩
    | some fs =>
      simp only [Option.getD_some, Option.map_some] at hf ⊢
      have hcol : ∀ f c, (some f, c) ∈ df.cols → df.column (some f) = .ok c := by
        intro f c hc
        unfold Frame.column
        have : df.cols.find? (fun c => decide (c.1 = some f)) = some (some f, c) := by
          obtain ⟨y, hy⟩ := Option.isSome_iff_exists.1 (List.find?_isSome.2 ⟨_, hc, by simp⟩ :
            (df.cols.find? (fun c => decide (c.1 = some f))).isSome = true)
          rw [hy]
          have h1 := List.find?_some hy
          have h2 := List.mem_of_find?_eq_some hy
          congr 1
          exact List.inj_on_of_nodup_map hd h2 hc (by simpa using h1)
        simp [this]
      induction fs with
      | nil => exact ⟨[], rfl, rfl, by simp⟩
      | cons f fs ih =>
        obtain ⟨r, hr, hl, hm⟩ := ih fun g hg => hf g (by simp [hg])
        obtain ⟨⟨n, c⟩, hc, hn⟩ := hf f (by simp)
        simp only at hn
        subst hn
        refine ⟨(some f, c) :: r, ?_, by simp [hl], fun name src => ?_⟩
        · rw [List.mapM_cons, hcol f c hc]
          simp only [ok_bind, pure_eq_ok]
          simp only [pure_eq_ok] at hr
          rw [hr]
          rfl
        · rw [List.mem_cons, hm]
          constructor
          · rintro (h | ⟨h1, h2⟩)
            · cases h
              exact ⟨hc, fun fs' h' => by cases h'; exact ⟨f, by simp, rfl⟩⟩
            · refine ⟨h1, fun fs' h' => ?_⟩
              cases h'
              obtain ⟨g, hg, e⟩ := h2 fs rfl
              exact ⟨g, by simp [hg], e⟩
          · rintro ⟨h1, h2⟩
            obtain ⟨g, hg, e⟩ := h2 _ rfl
            rcases List.mem_cons.1 hg with rfl | hg
            · left
              exact List.inj_on_of_nodup_map hd h1 hc e
            · exact Or.inr ⟨h1, fun fs' h' => by cases h'; exact ⟨g, hg, e⟩⟩
  obtain ⟨sub, hs, hl, hm⟩ := hsub
  have hlag : lagFrame df nLags stride features = .ok ((df.cols.map fun c => ((c.1, 0), c.2)) ++
      ((List.range nLags.toNat).tail).flatMap fun (nn : Nat) =>
        sub.map fun c => ((c.1, nn), shiftCol (stride * (nn : Int)) c.2)) := by
    unfold lagFrame
    cases features with
    | none => cases hs; rfl
    | some fs => simp only [hs, ok_bind]; rfl
  refine ⟨_, hlag, ?_, fun name k col => ?_⟩
  · rw [List.length_append, List.length_map, List.length_flatMap]
    simp [hl, List.length_tail]
  · rw [List.mem_append, List.mem_map, List.mem_flatMap]
    have htail : ∀ k : Nat, k ∈ (List.range nLags.toNat).tail ↔ 1 ≤ k ∧ (k : Int) < nLags := by
      intro k
      have : (List.range nLags.toNat).tail = List.range' 1 (nLags.toNat - 1) := by
        rw [List.range_eq_range', List.tail_range']
      rw [this, List.mem_range'_1]
      omega
    constructor
    · rintro (⟨⟨n, c⟩, hc, e⟩ | ⟨k', hk, h⟩)
      · cases e
        exact Or.inl ⟨rfl, hc⟩
      · obtain ⟨⟨n, c⟩, hc, e⟩ := List.mem_map.1 h
        cases e
        obtain ⟨h1, h2⟩ := (hm _ _).1 hc
        obtain ⟨h3, h4⟩ := (htail _).1 hk
        exact Or.inr ⟨h3, h4, c, h1, h2, shiftCol_spec _ _⟩
    · rintro (⟨rfl, hc⟩ | ⟨h3, h4, c, h1, h2, rfl⟩)
      · exact Or.inl ⟨_, hc, rfl⟩
      · exact Or.inr ⟨k, (htail _).2 ⟨h3, h4⟩, List.mem_map.2 ⟨(name, c), (hm _ _).2 ⟨h1, h2⟩, by rw [shiftCol_spec]⟩⟩

/-- The documented layout on a frame of four rows: the column of lag 1 starts with a missing value. -/
example : ∃ all, lagFrame exFrame 3 1 (some ["a".toList]) = .ok all ∧ all.length = 3 ∧
    ((some "a".toList, 1), none :: noNull (finiteVals [7, 5, 7])) ∈ all := by
  obtain ⟨all, h, hl, hm⟩ := C35_lag_frame exFrame (by simp [exFrame]) 3 1 (some ["a".toList]) (by simp [exFrame])
  exact ⟨all, h, by simpa [exFrame] using hl, (hm _ _ _).2 (Or.inr ⟨le_rfl, by norm_num, _, List.mem_singleton.2 rfl,
    fun fs h => by cases h; exact ⟨_, by simp, rfl⟩, rfl⟩)⟩

end Mlp.Props
