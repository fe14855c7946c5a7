import Verif.Lemmas.Boot
import Mathlib.Algebra.Order.BigOperators.Group.List
import Mathlib.Data.List.Perm.Basic

/-! # Properties C36–C43: bootstrap weights, intervals, error bars and significance -/

set_option linter.unusedSectionVars false

namespace Mlp.Props
open Mlp Mlp.Spec Mlp.Boot Mlp.Lemmas

section
variable {K : Type} [Field K] [LinearOrder K] [IsStrictOrderedRing K] [FloorRing K]

/-! ## C36 -/

/-- C36: for every multinomial outcome the weights with `epsilon = 0` are the counts themselves: one
row of `N` non-negative integers summing to `N` for each replicate. -/
theorem C36_weights {N nBoot : Nat} (hN : 1 ≤ N) (hB : 1 ≤ nBoot) {counts : List (List Nat)}
    (hlen : counts.length = nBoot) (hc : ∀ row ∈ counts, IsMultinomial N row) :
    bootWeights (N : Int) (nBoot : Int) (0 : K) counts =
        .ok (counts.map fun row => row.map fun (c : Nat) => (c : K)) ∧
      ∀ row ∈ counts, (row.map fun (c : Nat) => (c : K)).sum = N ∧ row.length = N := by
  have e : ∀ row : List Nat, (row.map fun (c : Nat) => max (0 : K) (c : K)) =
      row.map fun (c : Nat) => (c : K) := by
    intro row
    apply List.map_congr_left
    intro c _
    exact max_eq_right (Nat.cast_nonneg c)
  constructor
  · unfold bootWeights
    simp only [e, pyAssert_bind, List.length_map, hlen]
    have a1 : (1 : Int) ≤ N := by exact_mod_cast hN
    have a2 : (1 : Int) ≤ nBoot := by exact_mod_cast hB
    have a3 : ((counts.map fun row => row.map fun (c : Nat) => (c : K)).all fun row =>
        decide ((row.length : Int) = N)) = true := by
      rw [List.all_eq_true]
      intro r hr
      obtain ⟨row, hrow, rfl⟩ := List.mem_map.1 hr
      simp [(hc row hrow).1]
    simp only [a1, a2, a3, decide_true, Bool.and_self, if_true, pure_eq_ok]
  · intro row hrow
    refine ⟨?_, (hc row hrow).1⟩
    have : (row.map fun (c : Nat) => (c : K)).sum = ((row.sum : Nat) : K) := by
      clear hrow
      induction row with
      | nil => simp
      | cons c row ih => simp [ih]
    rw [this, (hc row hrow).2]

/-- C36: with a floor `epsilon` every weight is at least `epsilon` and at least the count. -/
theorem C36_floor {N nBoot : Int} {epsilon : K} {counts : List (List Nat)} {w : List (List K)}
    (h : bootWeights N nBoot epsilon counts = .ok w) :
    1 ≤ N ∧ 1 ≤ nBoot ∧ (w.length : Int) = nBoot ∧
    List.Forall₂ (List.Forall₂ fun (c : Nat) (v : K) => epsilon ≤ v ∧ (c : K) ≤ v ∧
      (v = epsilon ∨ v = c)) counts w ∧ ∀ row ∈ w, (row.length : Int) = N := by
  unfold bootWeights at h
  simp only [pyAssert_bind] at h
  split_ifs at h with h1 h2 h3
  simp only [pure_eq_ok, Except.ok.injEq] at h
  rw [h] at h3
  simp only [Bool.and_eq_true, decide_eq_true_eq, List.all_eq_true] at h1 h2 h3
  refine ⟨h1, h2, h3.1, ?_, h3.2⟩
  subst h
  rw [List.forall₂_map_right_iff, List.forall₂_same]
  intro row _
  rw [List.forall₂_map_right_iff, List.forall₂_same]
  intro c _
  exact ⟨le_max_left _ _, le_max_right _ _, max_choice _ _⟩

/-- C36: a number of points or replicates below 1 is rejected. -/
theorem C36_reject {N nBoot : Int} (epsilon : K) (counts : List (List Nat)) (h : N < 1 ∨ nBoot < 1) :
    bootWeights N nBoot epsilon counts = .error .assertion := by
  unfold bootWeights
  simp only [pyAssert_bind]
  rcases h with h | h
  · rw [if_neg (by simp; omega)]
  · split_ifs with h1 h2 h3 <;> first | rfl | (simp at h2; omega)

/-- The mean of the data with the given weights, as `_boot_EB_and_test` computes it. -/
theorem sum_replicate_flat (x : List K) (row : List Nat) :
    (((x.zip row).map fun p => List.replicate p.2 p.1).flatten).sum =
      (List.zipWith (fun a (b : Nat) => a * (b : K)) x row).sum := by
  induction x generalizing row with
  | nil => simp
  | cons a x ih =>
    rcases row with _ | ⟨b, row⟩
    · simp
    · simp [ih, mul_comm]

/-- C36: a weighted mean is the mean of a resample of the same size: a list of `N` entries of the
data, in which point `i` occurs as often as its weight says; hence it lies between the smallest and
the largest data point. -/
theorem C36_resample {x : List K} {row : List Nat} (hne : x ≠ []) (h : IsMultinomial x.length row) :
    ∃ idx : List Nat, idx.length = x.length ∧ (∀ i ∈ idx, i < x.length) ∧
      (∀ i < x.length, row[i]? = some (idx.count i)) ∧
      (List.zipWith (fun a (b : Nat) => a * (b : K)) x row).sum / x.length =
        (idx.filterMap fun i => x[i]?).sum / x.length ∧
      ∀ lo hi : K, (∀ a ∈ x, lo ≤ a ∧ a ≤ hi) →
        lo ≤ (List.zipWith (fun a (b : Nat) => a * (b : K)) x row).sum / x.length ∧
        (List.zipWith (fun a (b : Nat) => a * (b : K)) x row).sum / x.length ≤ hi := by
  obtain ⟨hl, hs⟩ := h
  set idx := (row.mapIdx fun i c => List.replicate c i).flatten with hidx
  have hflat : ∀ (row : List Nat) (k : Nat),
      ((row.mapIdx fun i c => List.replicate c (i + k)).flatten).length = row.sum := by
    intro row
    induction row with
    | nil => simp
    | cons c row ih =>
      intro k
      simp only [List.mapIdx_cons, List.flatten_cons, List.length_append, List.length_replicate,
        List.sum_cons]
      have := ih (k + 1)
      rw [show (fun i (c : Nat) => List.replicate c (i + 1 + k)) =
        fun i c => List.replicate c (i + (k + 1)) from by
          funext i c; congr 1; omega]
      rw [this]
  have hmem : ∀ (row : List Nat) (k i : Nat),
      i ∈ (row.mapIdx fun i c => List.replicate c (i + k)).flatten → k ≤ i ∧ i < row.length + k := by
    intro row
    induction row with
    | nil => simp
    | cons c row ih =>
      intro k i hi
      simp only [List.mapIdx_cons, List.flatten_cons, List.mem_append, List.mem_replicate] at hi
      rw [show (fun i (c : Nat) => List.replicate c (i + 1 + k)) =
        fun i c => List.replicate c (i + (k + 1)) from by
          funext i c; congr 1; omega] at hi
      rcases hi with ⟨-, rfl⟩ | hi
      · simp
      · have := ih (k + 1) i hi
        simp only [List.length_cons]; omega
  have hcount : ∀ (row : List Nat) (k i : Nat), i < row.length →
      row[i]? = some ((row.mapIdx fun i c => List.replicate c (i + k)).flatten.count (i + k)) := by
    intro row
    induction row with
    | nil => simp
    | cons c row ih =>
      intro k i hi
      simp only [List.mapIdx_cons, List.flatten_cons, List.count_append]
      rw [show (fun i (c : Nat) => List.replicate c (i + 1 + k)) =
        fun i c => List.replicate c (i + (k + 1)) from by
          funext i c; congr 1; omega]
      rcases i with _ | i
      · have : List.count (0 + k) ((row.mapIdx fun i c => List.replicate c (i + (k + 1))).flatten) = 0 := by
          rw [List.count_eq_zero]
          intro hm
          have := hmem row (k + 1) _ hm
          omega
        rw [this]
        simp
      · have h1 := ih (k + 1) i (by simpa using hi)
        rw [List.getElem?_cons_succ, h1]
        have : List.count (i + 1 + k) (List.replicate c (0 + k)) = 0 := by
          rw [List.count_replicate]
          rw [if_neg]
          simp
        rw [this, zero_add]
        congr 2; omega
  have hsum : ∀ (x : List K) (row : List Nat) (pre : List K), row.length = x.length →
      (((row.mapIdx fun i c => List.replicate c (i + pre.length)).flatten).filterMap
        fun i => (pre ++ x)[i]?).sum = (List.zipWith (fun a (b : Nat) => a * (b : K)) x row).sum := by
    intro x
    induction x with
    | nil =>
      intro row pre hl
      have : row = [] := by simpa using hl
      subst this; simp
    | cons a x ih =>
      intro row pre hl
      rcases row with _ | ⟨b, row⟩
      · simp at hl
      · simp only [List.mapIdx_cons, List.flatten_cons, List.filterMap_append, List.sum_append,
          List.zipWith_cons_cons, List.sum_cons]
        have h1 := ih row (pre ++ [a]) (by simpa using hl)
        rw [show (pre ++ [a]) ++ x = pre ++ a :: x by simp] at h1
        rw [show (fun i (c : Nat) => List.replicate c (i + 1 + pre.length)) =
          fun i c => List.replicate c (i + (pre ++ [a]).length) from by
            funext i c; congr 1; simp; omega]
        rw [h1]
        congr 1
        rw [zero_add, List.filterMap_replicate]
        simp [mul_comm]
  have e0 : ∀ row : List Nat, (row.mapIdx fun i c => List.replicate c i) =
      row.mapIdx fun i c => List.replicate c (i + 0) := by intro row; rfl
  have hlen : idx.length = x.length := by
    rw [hidx, e0, hflat, hs]
  have hall : ∀ i ∈ idx, i < x.length := by
    intro i hi
    rw [hidx, e0] at hi
    have := hmem row 0 i hi
    omega
  have heq : (List.zipWith (fun a (b : Nat) => a * (b : K)) x row).sum =
      (idx.filterMap fun i => x[i]?).sum := by
    have := hsum x row [] (by rw [hl])
    rw [← this]
    rfl
  refine ⟨idx, hlen, hall, ?_, by rw [heq], ?_⟩
  · intro i hi
    have := hcount row 0 i (by omega)
    rw [this]; rfl
  · intro lo hi hb
    have hn : (0 : K) < x.length := by
      have : 0 < x.length := List.length_pos_iff.2 hne
      exact_mod_cast this
    have hlen2 : (idx.filterMap fun i => x[i]?).length = x.length := by
      rw [← hlen]
      clear_value idx
      clear hidx heq hlen
      induction idx with
      | nil => rfl
      | cons i idx ih =>
        have hi := hall i (by simp)
        rw [List.filterMap_cons_some (b := x[i]) (by simp [hi])]
        simp [ih fun j hj => hall j (by simp [hj])]
    have hmemx : ∀ a ∈ (idx.filterMap fun i => x[i]?), a ∈ x := by
      intro a ha
      obtain ⟨i, -, e⟩ := List.mem_filterMap.1 ha
      exact List.mem_of_getElem? e
    rw [heq, le_div_iff₀ hn, div_le_iff₀ hn]
    have b1 := List.card_nsmul_le_sum (idx.filterMap fun i => x[i]?) lo
      (fun a ha => (hb a (hmemx a ha)).1)
    have b2 := List.sum_le_card_nsmul (idx.filterMap fun i => x[i]?) hi
      (fun a ha => (hb a (hmemx a ha)).2)
    rw [hlen2, nsmul_eq_mul] at b1 b2
    exact ⟨by linarith, by linarith⟩

example : IsMultinomial 3 [0, 2, 1] := by unfold IsMultinomial; decide
example : bootWeights (K := ℚ) 3 2 0 [[0, 2, 1], [1, 1, 1]] = .ok [[0, 2, 1], [1, 1, 1]] := by
  decide +kernel

/-! ## C37 -/

/-- C37: the two percentiles are symmetric about 50 and `100 * confidence` apart. -/
theorem C37_percentiles {c : K} (h0 : 0 < c) (h1 : c < 1) :
    ∃ LB UB : K, confidenceToPercentiles (.fin c) = .ok (LB, UB) ∧ 0 < LB ∧ LB < 50 ∧ 50 < UB ∧
      UB < 100 ∧ LB + UB = 100 ∧ UB - LB = 100 * c := by
  refine ⟨100 * (1 / 2 * (1 - c)), 100 * (1 - 1 / 2 * (1 - c)), ?_, ?_, ?_, ?_, ?_, ?_, ?_⟩
  · simp [confidenceToPercentiles, pyAssert_bind, h0, h1, pure_eq_ok]
  all_goals linarith

/-- C37: every confidence that is not a number strictly between 0 and 1 is rejected. -/
theorem C37_reject (conf : Flt K) (h : ∀ c, conf = .fin c → c ≤ 0 ∨ 1 ≤ c) :
    confidenceToPercentiles conf = .error .assertion := by
  cases conf with
  | fin c =>
    have := h c rfl
    unfold confidenceToPercentiles
    simp only
    rw [pyAssert_bind, if_neg]
    simp only [Bool.and_eq_true, decide_eq_true_eq, not_and, not_lt]
    intro h0
    rcases this with h | h
    · exact absurd h0 (not_lt.2 h)
    · exact h
  | pinf => rfl
  | ninf => rfl
  | nan => rfl

example : confidenceToPercentiles (K := ℚ) (.fin (95/100)) = .ok (5/2, 195/2) := by decide +kernel

/-! ## C38 -/

/-- C38: on a non-empty sample without NaN the interval ends are sample values in order, namely the
`k`-th smallest and the `k`-th largest for `k = floor((1-c)/2 * (n-1))`, and at least a share `c` of
the sample lies between them. -/
theorem C38_percentile {boot : List (Flt K)} (hne : boot ≠ []) (hnan : NoNaN boot) {c : K}
    (h0 : 0 < c) (h1 : c < 1) :
    ∃ LB UB, percentile boot (.fin c) = .ok (LB, UB) ∧ LB ∈ boot ∧ UB ∈ boot ∧ LB ≤ UB ∧
      (∃ k : Nat, (k : Int) = ⌊(1 - c) / 2 * ((boot.length : K) - 1)⌋ ∧ k < boot.length ∧
        IsOrderStat boot k LB ∧ IsOrderStat boot (boot.length - 1 - k) UB) ∧
      c * boot.length ≤ boot.countP fun v => decide (LB ≤ v ∧ v ≤ UB) := by
  have hn : 0 < boot.length := List.length_pos_iff.2 hne
  obtain ⟨hf, h2, hk1, hk2⟩ := lowIdx_facts h0 h1 hn
  obtain ⟨LB, UB, hok, s1, s2⟩ := percentile_ok hne hnan h0 h1
  have hle : LB ≤ UB := s1.mono (by omega) s2
  refine ⟨LB, UB, hok, s1.1, s2.1, hle, ⟨_, hf, by omega, s1, s2⟩, ?_⟩
  set k := lowIdx c boot.length with hk
  have hcnt : boot.length + (boot.countP fun v => decide (LB ≤ v ∧ v ≤ UB)) =
      (boot.countP fun v => decide (LB ≤ v)) + boot.countP fun v => decide (v ≤ UB) := by
    clear s1 s2 hok hne hnan hn hf h2 hk1 hk2 hk k
    induction boot with
    | nil => rfl
    | cons v l ih =>
      simp only [List.countP_cons, List.length_cons]
      have hab : LB ≤ v ∨ v ≤ UB := by
        by_contra hc
        push Not at hc
        exact absurd (hle.trans hc.2.le) (not_le.2 hc.1)
      by_cases a : LB ≤ v <;> by_cases b : v ≤ UB <;>
        simp only [a, b, and_self, and_true, and_false, decide_true, decide_false, if_true,
          Bool.false_eq_true, if_false]
      · omega
      · omega
      · omega
      · exact absurd hab (by simp [a, b])
  have hlow : boot.length = (boot.countP fun v => decide (LB ≤ v)) +
      boot.countP fun v => decide (v < LB) := by
    rw [List.length_eq_countP_add_countP (p := fun v => decide (LB ≤ v)) (l := boot)]
    congr 2
    funext v
    rw [Bool.eq_iff_iff]; simp
  have a1 := s1.2.1
  have a2 := s2.2.2
  have hmain : boot.length - 2 * k ≤ boot.countP fun v => decide (LB ≤ v ∧ v ≤ UB) := by omega
  have hmK : ((boot.length : K) - 2 * k) ≤ (boot.countP fun v => decide (LB ≤ v ∧ v ≤ UB) : Nat) := by
    have : ((boot.length - 2 * k : Nat) : K) ≤
        (boot.countP fun v => decide (LB ≤ v ∧ v ≤ UB) : Nat) := by exact_mod_cast hmain
    rw [Nat.cast_sub (by omega)] at this
    push_cast at this ⊢
    exact this
  have hnK : (1 : K) ≤ boot.length := by exact_mod_cast hn
  nlinarith

/-- C38: the interval does not depend on the order of the sample. -/
theorem C38_order {boot boot' : List (Flt K)} (h : boot.Perm boot') (conf : Flt K) :
    percentile boot conf = percentile boot' conf := by
  have hs : boot.insertionSort (· ≤ ·) = boot'.insertionSort (· ≤ ·) := by
    apply List.Perm.eq_of_pairwise (le := (· ≤ ·)) (fun a b _ _ => le_antisymm)
      (List.pairwise_insertionSort _ _) (List.pairwise_insertionSort _ _)
    exact ((List.perm_insertionSort _ _).trans h).trans (List.perm_insertionSort _ _).symm
  have ha : (boot.any fun v => v.isNaN) = boot'.any fun v => v.isNaN := by
    rw [Bool.eq_iff_iff]; simp [h.mem_iff]
  unfold percentile percentileLower percentileHigher
  rw [hs, ha, h.length_eq]

/-- C38: NaN in the sample, or a bad confidence, is rejected; an empty sample is an `IndexError`. -/
theorem C38_reject (boot : List (Flt K)) (conf : Flt K) :
    (¬ NoNaN boot → percentile boot conf = .error .assertion) ∧
    ((∀ c, conf = .fin c → c ≤ 0 ∨ 1 ≤ c) → percentile boot conf = .error .assertion) ∧
    ((∃ c, conf = .fin c ∧ 0 < c ∧ c < 1) → percentile [] conf = .error .indexError) := by
  refine ⟨fun h => ?_, fun h => ?_, ?_⟩
  · have : (boot.any fun v => v.isNaN) = true := by
      by_contra hc
      rw [Bool.not_eq_true, any_isNaN] at hc
      exact h hc
    unfold percentile
    rw [this]; rfl
  · unfold percentile
    rw [C37_reject conf h, pyAssert_bind]
    split_ifs <;> rfl
  · rintro ⟨c, rfl, h0, h1⟩
    unfold percentile confidenceToPercentiles
    simp [pyAssert_bind, h0, h1, pure_eq_ok, ok_bind, percentileLower, error_bind]

example : percentile (K := ℚ) [.fin 3, .ninf, .fin 1, .fin 2] (.fin (1/2)) = .ok (.ninf, .fin 3) := by
  decide +kernel
example : percentile (K := ℚ) [.fin 3, .ninf, .fin 1, .fin 2, .fin 7] (.fin (1/4)) =
    .ok (.fin 1, .fin 3) := by decide +kernel

/-! ## C39 -/

/-- C39: a higher confidence gives an interval that contains the one of the lower confidence. -/
theorem C39_nested {boot : List (Flt K)} {c₁ c₂ : K} (hc : c₁ ≤ c₂) {L₁ U₁ L₂ U₂ : Flt K}
    (h₁ : percentile boot (.fin c₁) = .ok (L₁, U₁)) (h₂ : percentile boot (.fin c₂) = .ok (L₂, U₂)) :
    L₂ ≤ L₁ ∧ U₁ ≤ U₂ := by
  have hnan : NoNaN boot := by
    by_contra h
    rw [(C38_reject boot _).1 h] at h₁; cases h₁
  have hb : ∀ c : K, ∀ r, percentile boot (.fin c) = .ok r → 0 < c ∧ c < 1 := by
    intro c r h
    by_contra hcon
    rw [(C38_reject boot (.fin c)).2.1] at h
    · cases h
    · rintro c' ⟨⟩
      by_contra h'
      push Not at h'
      exact hcon h'
  obtain ⟨a0, a1⟩ := hb c₁ _ h₁
  obtain ⟨b0, b1⟩ := hb c₂ _ h₂
  have hne : boot ≠ [] := by
    rintro rfl
    rw [(C38_reject [] (.fin c₁)).2.2 ⟨c₁, rfl, a0, a1⟩] at h₁; cases h₁
  have hn : 0 < boot.length := List.length_pos_iff.2 hne
  obtain ⟨L, U, e, s1, s2⟩ := percentile_ok hne hnan a0 a1
  rw [e] at h₁; cases h₁
  obtain ⟨L', U', e', s1', s2'⟩ := percentile_ok hne hnan b0 b1
  rw [e'] at h₂; cases h₂
  have hk : lowIdx c₂ boot.length ≤ lowIdx c₁ boot.length := by
    unfold lowIdx
    apply Int.toNat_le_toNat
    apply Int.floor_le_floor
    have : (1 : K) ≤ boot.length := by exact_mod_cast hn
    apply mul_le_mul_of_nonneg_right <;> linarith
  exact ⟨s1'.mono hk s1, s2.mono (by omega) s2'⟩

theorem sub_fin_mono {a b : Flt K} (h : a ≤ b) (x : K) : a.sub (.fin x) ≤ b.sub (.fin x) := by
  cases a <;> cases b <;> simp_all [Flt.sub, Flt.add]

theorem fin_sub_anti {a b : Flt K} (ha : a ≠ .nan) (hb : b ≠ .nan) (h : a ≤ b) (x : K) :
    (Flt.fin x).sub b ≤ (Flt.fin x).sub a := by
  cases a <;> cases b <;> (simp_all [Flt.sub, Flt.add, Flt.neg]; try linarith)

theorem sub_fin_ne_nan {a : Flt K} (ha : a ≠ .nan) (x : K) : a.sub (.fin x) ≠ .nan := by
  cases a <;> simp_all [Flt.sub, Flt.add]

theorem fin_sub_ne_nan {a : Flt K} (ha : a ≠ .nan) (x : K) : (Flt.fin x).sub a ≠ .nan := by
  cases a <;> simp_all [Flt.sub, Flt.add, Flt.neg]

/-! ## C40 -/

/-- C40: `error_bar` returns the larger distance from the estimate to the interval ends, for every
sample (possibly with infinities) and every estimate: its assertions never fail. -/
theorem C40_error_bar {boot : List (Flt K)} {conf : Flt K} {LB UB : Flt K}
    (h : percentile boot conf = .ok (LB, UB)) (orig : Flt K) :
    errorBar boot orig conf = .ok (Flt.fmax (UB.sub orig) (orig.sub LB)) ∧
    (∀ x, orig = .fin x → Flt.fin 0 ≤ Flt.fmax (UB.sub orig) (orig.sub LB) ∧
      Flt.fmax (UB.sub orig) (orig.sub LB) ≠ .nan) := by
  have hnan : NoNaN boot := by
    by_contra hc
    rw [(C38_reject boot _).1 hc] at h; cases h
  have hconf : ∃ c, conf = .fin c ∧ 0 < c ∧ c < 1 := by
    by_contra hcon
    rw [(C38_reject boot conf).2.1] at h
    · cases h
    · intro c hc
      by_contra h'
      push Not at h'
      exact hcon ⟨c, hc, h'⟩
  obtain ⟨c, rfl, c0, c1⟩ := hconf
  have hne : boot ≠ [] := by
    rintro rfl
    rw [(C38_reject [] (.fin c)).2.2 ⟨c, rfl, c0, c1⟩] at h; cases h
  obtain ⟨L, U, e, m1, m2, hle, -, -⟩ := C38_percentile hne hnan c0 c1
  rw [e] at h; cases h
  have n1 : LB ≠ .nan := fun e => hnan (e ▸ m1)
  have n2 : UB ≠ .nan := fun e => hnan (e ▸ m2)
  have key : (Flt.fmax (UB.sub orig) (orig.sub LB)).lt (.fin 0) = false ∧
      (orig.isFinite = true → (Flt.fmax (UB.sub orig) (orig.sub LB)).isNaN = false) ∧
      (∀ x, orig = .fin x → Flt.fin 0 ≤ Flt.fmax (UB.sub orig) (orig.sub LB)) := by
    by_cases hfin : ∃ l u x, LB = .fin l ∧ UB = .fin u ∧ orig = .fin x
    · obtain ⟨l, u, x, rfl, rfl, rfl⟩ := hfin
      rw [Flt.fin_le_fin] at hle
      have : 0 ≤ max (u - x) (x - l) := by
        rcases le_total x u with h | h
        · exact le_max_of_le_left (by linarith)
        · exact le_max_of_le_right (by linarith)
      simp [not_lt.2 this, this]
    · cases LB <;> cases UB <;> cases orig <;>
        simp_all [Flt.fmax, Flt.sub, Flt.add, Flt.neg, Flt.lt, Flt.isFinite, Flt.isNaN]
  constructor
  · unfold errorBar
    rw [e, ok_bind]
    simp only [pyAssert_bind, key.1, Bool.not_false, if_true, pure_eq_ok]
    rw [if_pos]
    cases ho : orig.isFinite
    · rfl
    · simp [key.2.1 ho]
  · intro x hx
    refine ⟨key.2.2 x hx, ?_⟩
    have := key.2.1 (by rw [hx]; rfl)
    rwa [Flt.isNaN_false] at this

/-- C40: for a finite sample and estimate the error bar is a number `e ≥ 0`; `estimate ± e` contains
the percentile and the basic interval, touches an end of each, and the basic interval gives the same
error bar. -/
theorem C40_finite {xs : List K} (hne : xs ≠ []) {c : K} (h0 : 0 < c) (h1 : c < 1) (x : K) :
    ∃ e l u : K, errorBar (finVec xs) (.fin x) (.fin c) = .ok (.fin e) ∧
      percentile (finVec xs) (.fin c) = .ok (.fin l, .fin u) ∧ l ∈ xs ∧ u ∈ xs ∧
      basic (finVec xs) (.fin x) (.fin c) = .ok (.fin (2 * x - u), .fin (2 * x - l)) ∧
      0 ≤ e ∧ x - e ≤ l ∧ u ≤ x + e ∧ (l = x - e ∨ u = x + e) ∧
      x - e ≤ 2 * x - u ∧ 2 * x - l ≤ x + e ∧ (2 * x - u = x - e ∨ 2 * x - l = x + e) ∧
      max ((2 * x - l) - x) (x - (2 * x - u)) = e := by
  have hne' : finVec xs ≠ [] := by simpa [finVec] using hne
  have hnan : NoNaN (finVec xs) := by simp [NoNaN, finVec]
  obtain ⟨LB, UB, hok, m1, m2, hle, -, -⟩ := C38_percentile hne' hnan h0 h1
  obtain ⟨l, hl, rfl⟩ := List.mem_map.1 m1
  obtain ⟨u, hu, rfl⟩ := List.mem_map.1 m2
  obtain ⟨he, hpos⟩ := C40_error_bar hok (.fin x)
  rw [Flt.fin_le_fin] at hle
  simp only [Flt.sub_fin, Flt.fmax_fin] at he hpos
  have hp := (hpos x rfl).1
  rw [Flt.fin_le_fin] at hp
  refine ⟨max (u - x) (x - l), l, u, he, hok, hl, hu, ?_, hp, ?_, ?_, ?_, ?_, ?_, ?_, ?_⟩
  · unfold basic
    rw [hok, ok_bind]; simp [pure_eq_ok]
  · have := le_max_right (u - x) (x - l); linarith
  · have := le_max_left (u - x) (x - l); linarith
  · rcases max_choice (u - x) (x - l) with h | h
    · right; rw [h]; ring
    · left; rw [h]; ring
  · have := le_max_left (u - x) (x - l); linarith
  · have := le_max_right (u - x) (x - l); linarith
  · rcases max_choice (u - x) (x - l) with h | h
    · left; rw [h]; ring
    · right; rw [h]; ring
  · rw [max_comm]; congr 1 <;> ring

/-- C39: a higher confidence gives a larger error bar around a finite estimate. -/
theorem C39_error_bar {boot : List (Flt K)} {c₁ c₂ : K} (hc : c₁ ≤ c₂) {x : K} {e₁ e₂ : Flt K}
    (h₁ : errorBar boot (.fin x) (.fin c₁) = .ok e₁) (h₂ : errorBar boot (.fin x) (.fin c₂) = .ok e₂) :
    e₁ ≤ e₂ := by
  have hp : ∀ c : K, ∀ e, errorBar boot (.fin x) (.fin c) = .ok e →
      ∃ L U, percentile boot (.fin c) = .ok (L, U) := by
    intro c e h
    cases hq : percentile boot (.fin c) with
    | ok p => exact ⟨p.1, p.2, rfl⟩
    | error err => unfold errorBar at h; rw [hq] at h; cases h
  obtain ⟨L₁, U₁, p₁⟩ := hp c₁ e₁ h₁
  obtain ⟨L₂, U₂, p₂⟩ := hp c₂ e₂ h₂
  obtain ⟨hL, hU⟩ := C39_nested hc p₁ p₂
  have hnan : NoNaN boot := by
    by_contra h
    rw [(C38_reject boot _).1 h] at p₁; cases p₁
  have nn : ∀ c : K, ∀ L U, percentile boot (.fin c) = .ok (L, U) → L ≠ .nan ∧ U ≠ .nan := by
    intro c L U h
    have hconf : 0 < c ∧ c < 1 := by
      by_contra hcon
      rw [(C38_reject boot (.fin c)).2.1] at h
      · cases h
      · rintro c' ⟨⟩
        by_contra h'
        push Not at h'
        exact hcon h'
    have hne : boot ≠ [] := by
      rintro rfl
      rw [(C38_reject [] (.fin c)).2.2 ⟨c, rfl, hconf⟩] at h; cases h
    obtain ⟨L', U', e, m1, m2, -⟩ := C38_percentile hne hnan hconf.1 hconf.2
    rw [e] at h; cases h
    exact ⟨fun e => hnan (e ▸ m1), fun e => hnan (e ▸ m2)⟩
  obtain ⟨a1, a2⟩ := nn _ _ _ p₁
  obtain ⟨b1, b2⟩ := nn _ _ _ p₂
  have q₁ := (C40_error_bar p₁ (.fin x)).1
  have q₂ := (C40_error_bar p₂ (.fin x)).1
  rw [h₁] at q₁; cases q₁
  rw [h₂] at q₂; cases q₂
  unfold Flt.fmax
  simp only [Flt.isNaN_false.2 (sub_fin_ne_nan a2 x), Flt.isNaN_false.2 (sub_fin_ne_nan b2 x),
    Flt.isNaN_false.2 (fin_sub_ne_nan a1 x), Flt.isNaN_false.2 (fin_sub_ne_nan b1 x),
    Bool.false_eq_true, if_false]
  exact max_le_max (sub_fin_mono hU x) (fin_sub_anti b1 a1 hL x)

example : errorBar (K := ℚ) (finVec [3, 1, 2, 7]) (.fin 4) (.fin (1/2)) = .ok (.fin 3) := by
  decide +kernel
/-- An infinite estimate with infinite samples is the only way to a NaN error bar. -/
example : errorBar (K := ℚ) [.pinf, .pinf] .pinf (.fin (1/2)) = .ok .nan := by decide +kernel

/-! ## C41 -/

/-- Number of positions where the first vector is at most the second. -/
def countLe (a b : List (Flt K)) : Nat := (a.zip b).countP fun p => decide (p.1 ≤ p.2)

theorem count_zipWith_le {a b : List (Flt K)} (hb : NoNaN b) :
    (List.zipWith Flt.le a b).count true = countLe a b := by
  unfold countLe
  induction a generalizing b with
  | nil => simp
  | cons x a ih =>
    rcases b with _ | ⟨y, b⟩
    · simp
    · have hy : y ≠ .nan := fun e => hb (by simp [e])
      have hb' : NoNaN b := fun h => hb (by simp [h])
      rw [List.zipWith_cons_cons, List.zip_cons_cons, List.count_cons, List.countP_cons, ih hb']
      congr 1
      by_cases h : x ≤ y
      · have : x.le y = true := Flt.le_iff.2 ⟨hy, h⟩
        simp [h, this]
      · have : x.le y = false := by
          rw [← Bool.not_eq_true, Flt.le_iff]
          exact fun h' => h h'.2
        simp [h, this]

/-- The two-sided p-value of `n` comparisons of which `a` are `≤` and `b` are `≥`. -/
def twoSided (n a b : Nat) : K := min 1 (2 * (min (a : K) b / n))

theorem significance_paired {boot r : List (Flt K)} (hne : boot ≠ []) (hlen : r.length = boot.length)
    (hb : NoNaN boot) (hr : NoNaN r) :
    significance boot (.paired r) =
      .ok (.fin (twoSided boot.length (countLe boot r) (countLe r boot))) := by
  have hn : (boot.length : K) ≠ 0 := by
    have : 0 < boot.length := List.length_pos_iff.2 hne
    exact_mod_cast this.ne'
  have hn' : (0 : K) < boot.length := lt_of_le_of_ne (Nat.cast_nonneg _) hn.symm
  unfold significance Ref.broadcast
  simp only [hlen, if_true, any_isNaN.2 hb, any_isNaN.2 hr, pyAssert_bind, Bool.not_false]
  unfold meanBool
  rw [count_zipWith_le hr, count_zipWith_le hb, List.length_zipWith, List.length_zipWith, hlen,
    Nat.min_self, Flt.div_fin hn, Flt.div_fin hn, Flt.minimum_fin, Flt.mul_fin, Flt.minimum_fin,
    pure_eq_ok]
  unfold twoSided
  rw [min_div_div_right hn'.le]

/-- A scalar reference is the same as a constant vector. -/
theorem C41_scalar_is_constant (boot : List (Flt K)) (hne : boot ≠ []) (r : Flt K) :
    significance boot (.scalar r) = significance boot (.paired (List.replicate boot.length r)) := by
  unfold significance Ref.broadcast
  have : (List.replicate boot.length r).any (fun v => v.isNaN) = r.isNaN := by
    obtain ⟨b, l, rfl⟩ := List.exists_cons_of_ne_nil hne
    rw [Bool.eq_iff_iff]; simp
  simp only [List.length_replicate, if_true, this]

theorem noNaN_replicate {n : Nat} {r : Flt K} (hr : r ≠ .nan) : NoNaN (List.replicate n r) := by
  intro h
  exact hr (List.eq_of_mem_replicate h).symm

theorem countLe_replicate_right (boot : List (Flt K)) (r : Flt K) :
    countLe boot (List.replicate boot.length r) = boot.countP fun v => decide (v ≤ r) := by
  unfold countLe
  induction boot with
  | nil => rfl
  | cons b l ih => simp [List.replicate_succ, List.countP_cons, ih]

theorem countLe_replicate_left (boot : List (Flt K)) (r : Flt K) :
    countLe (List.replicate boot.length r) boot = boot.countP fun v => decide (r ≤ v) := by
  unfold countLe
  induction boot with
  | nil => rfl
  | cons b l ih => simp [List.replicate_succ, List.countP_cons, ih]

theorem twoSided_bounds (n a b : Nat) : (0 : K) ≤ twoSided n a b ∧ twoSided n a b ≤ (1 : K) := by
  unfold twoSided
  refine ⟨le_min zero_le_one ?_, min_le_left _ _⟩
  have : (0 : K) ≤ min (a : K) b := le_min (Nat.cast_nonneg _) (Nat.cast_nonneg _)
  positivity

theorem twoSided_comm (n a b : Nat) : (twoSided n a b : K) = twoSided n b a := by
  unfold twoSided; rw [min_comm (a : K)]

/-- C41: the value against a number: twice the smaller of the shares of the sample on either side
(ties count on both), at most 1. -/
theorem C41_scalar {boot : List (Flt K)} (hne : boot ≠ []) (hb : NoNaN boot) {r : Flt K}
    (hr : r ≠ .nan) :
    ∃ p : K, significance boot (.scalar r) = .ok (.fin p) ∧ 0 ≤ p ∧ p ≤ 1 ∧
      p = min 1 (2 * (min ((boot.countP fun v => decide (v ≤ r) : Nat) : K)
        (boot.countP fun v => decide (r ≤ v) : Nat) / (boot.length : K))) := by
  refine ⟨twoSided boot.length (boot.countP fun v => decide (v ≤ r))
    (boot.countP fun v => decide (r ≤ v)), ?_, (twoSided_bounds ..).1, (twoSided_bounds ..).2, rfl⟩
  rw [C41_scalar_is_constant _ hne, significance_paired hne (by simp) hb (noNaN_replicate hr),
    countLe_replicate_right, countLe_replicate_left]

/-- C41: the value of a paired test. -/
theorem C41_paired {boot r : List (Flt K)} (hne : boot ≠ []) (hlen : r.length = boot.length)
    (hb : NoNaN boot) (hr : NoNaN r) :
    ∃ p : K, significance boot (.paired r) = .ok (.fin p) ∧ 0 ≤ p ∧ p ≤ 1 ∧
      p = min 1 (2 * (min (((boot.zip r).countP fun q => decide (q.1 ≤ q.2) : Nat) : K)
        ((boot.zip r).countP fun q => decide (q.2 ≤ q.1) : Nat) / (boot.length : K))) := by
  refine ⟨twoSided boot.length (countLe boot r) (countLe r boot),
    significance_paired hne hlen hb hr, (twoSided_bounds ..).1, (twoSided_bounds ..).2, ?_⟩
  unfold twoSided countLe
  rw [← List.zip_swap boot r, List.countP_map]
  rfl

/-- C41: swapping the sample and a paired reference. -/
theorem C41_swap (boot r : List (Flt K)) :
    significance boot (.paired r) = significance r (.paired boot) := by
  unfold significance Ref.broadcast
  by_cases h : r.length = boot.length
  · simp only [h, if_true, pyAssert_bind]
    cases h1 : (boot.any fun v => v.isNaN) <;> cases h2 : (r.any fun v => v.isNaN) <;>
      simp only [Bool.not_false, Bool.not_true, if_true, Bool.false_eq_true, if_false]
    congr 3
    unfold Flt.minimum
    rw [Bool.or_comm, min_comm]
  · have h' : ¬ boot.length = r.length := fun e => h e.symm
    simp only [h, h', if_false]

theorem countLe_map_neg {a b : List (Flt K)} (ha : NoNaN a) (hb : NoNaN b) :
    countLe (a.map Flt.neg) (b.map Flt.neg) = countLe b a := by
  unfold countLe
  induction a generalizing b with
  | nil => simp
  | cons x a ih =>
    rcases b with _ | ⟨y, b⟩
    · simp
    · have hx : x ≠ .nan := fun e => ha (by simp [e])
      have hy : y ≠ .nan := fun e => hb (by simp [e])
      simp only [List.map_cons, List.zip_cons_cons, List.countP_cons]
      rw [ih (fun h => ha (by simp [h])) (fun h => hb (by simp [h]))]
      simp only [Flt.neg_le_neg hx hy]

theorem noNaN_map_neg {a : List (Flt K)} (ha : NoNaN a) : NoNaN (a.map Flt.neg) := by
  intro h
  obtain ⟨x, hx, e⟩ := List.mem_map.1 h
  exact ha (Flt.neg_eq_nan.1 e ▸ hx)

/-- C41: negating sample and reference. -/
theorem C41_negate {boot r : List (Flt K)} (hne : boot ≠ []) (hlen : r.length = boot.length)
    (hb : NoNaN boot) (hr : NoNaN r) :
    significance (boot.map Flt.neg) (.paired (r.map Flt.neg)) = significance boot (.paired r) := by
  rw [significance_paired (by simpa using hne) (by simpa using hlen) (noNaN_map_neg hb)
    (noNaN_map_neg hr), significance_paired hne hlen hb hr, countLe_map_neg hb hr,
    countLe_map_neg hr hb, List.length_map, twoSided_comm]

theorem add_fin_le {x y : Flt K} (hx : x ≠ .nan) (hy : y ≠ .nan) (c : K) :
    x.add (.fin c) ≤ y.add (.fin c) ↔ x ≤ y := by
  cases x <;> cases y <;> simp_all [Flt.add]

theorem add_fin_ne_nan {x : Flt K} (hx : x ≠ .nan) (c : K) : x.add (.fin c) ≠ .nan := by
  cases x <;> simp_all [Flt.add]

theorem noNaN_map_add {a : List (Flt K)} (ha : NoNaN a) (c : K) :
    NoNaN (a.map fun v => v.add (.fin c)) := by
  intro h
  obtain ⟨x, hx, e⟩ := List.mem_map.1 h
  exact add_fin_ne_nan (fun e' => ha (e' ▸ hx)) c e

theorem countLe_map_add {a b : List (Flt K)} (ha : NoNaN a) (hb : NoNaN b) (c : K) :
    countLe (a.map fun v => v.add (.fin c)) (b.map fun v => v.add (.fin c)) = countLe a b := by
  unfold countLe
  induction a generalizing b with
  | nil => simp
  | cons x a ih =>
    rcases b with _ | ⟨y, b⟩
    · simp
    · have hx : x ≠ .nan := fun e => ha (by simp [e])
      have hy : y ≠ .nan := fun e => hb (by simp [e])
      simp only [List.map_cons, List.zip_cons_cons, List.countP_cons]
      rw [ih (fun h => ha (by simp [h])) (fun h => hb (by simp [h]))]
      simp only [add_fin_le hx hy]

/-- C41: adding a number to sample and reference. -/
theorem C41_shift {boot r : List (Flt K)} (hne : boot ≠ []) (hlen : r.length = boot.length)
    (hb : NoNaN boot) (hr : NoNaN r) (c : K) :
    significance (boot.map fun v => v.add (.fin c)) (.paired (r.map fun v => v.add (.fin c))) =
      significance boot (.paired r) := by
  rw [significance_paired (by simpa using hne) (by simpa using hlen) (noNaN_map_add hb c)
    (noNaN_map_add hr c), significance_paired hne hlen hb hr, countLe_map_add hb hr,
    countLe_map_add hr hb, List.length_map]

/-- C41: the order of the (sample, reference) pairs does not matter. -/
theorem C41_order {boot r boot' r' : List (Flt K)} (hlen : r.length = boot.length)
    (hlen' : r'.length = boot'.length) (h : (boot.zip r).Perm (boot'.zip r')) :
    significance boot (.paired r) = significance boot' (.paired r') := by
  have e1 : boot = (boot.zip r).map Prod.fst := (List.map_fst_zip (by omega)).symm
  have e2 : r = (boot.zip r).map Prod.snd := (List.map_snd_zip (by omega)).symm
  have e1' : boot' = (boot'.zip r').map Prod.fst := (List.map_fst_zip (by omega)).symm
  have e2' : r' = (boot'.zip r').map Prod.snd := (List.map_snd_zip (by omega)).symm
  have p1 : boot.Perm boot' := by rw [e1, e1']; exact h.map _
  have p2 : r.Perm r' := by rw [e2, e2']; exact h.map _
  have hl := p1.length_eq
  have z : ∀ (f : Flt K → Flt K → Bool) (a b : List (Flt K)),
      List.zipWith f a b = (a.zip b).map fun p => f p.1 p.2 := by
    intro f a b; rw [List.zip_eq_zipWith, List.map_zipWith]
  unfold significance Ref.broadcast
  simp only [hlen, hlen', if_true, pyAssert_bind]
  have a1 : (boot.any fun v => v.isNaN) = boot'.any fun v => v.isNaN := by
    rw [Bool.eq_iff_iff]; simp [p1.mem_iff]
  have a2 : (r.any fun v => v.isNaN) = r'.any fun v => v.isNaN := by
    rw [Bool.eq_iff_iff]; simp [p2.mem_iff]
  have c1 : (List.zipWith Flt.le boot r).Perm (List.zipWith Flt.le boot' r') := by
    rw [z, z]; exact h.map _
  have c2 : (List.zipWith Flt.le r boot).Perm (List.zipWith Flt.le r' boot') := by
    rw [z, z, ← List.zip_swap boot r, ← List.zip_swap boot' r', List.map_map, List.map_map]
    exact h.map _
  have m1 : (meanBool (List.zipWith Flt.le boot r) : Flt K) =
      meanBool (List.zipWith Flt.le boot' r') := by
    unfold meanBool; rw [c1.count_eq, c1.length_eq]
  have m2 : (meanBool (List.zipWith Flt.le r boot) : Flt K) =
      meanBool (List.zipWith Flt.le r' boot') := by
    unfold meanBool; rw [c2.count_eq, c2.length_eq]
  rw [a1, a2, m1, m2]

/-- C41: for finite numbers the paired test is the test of the differences against 0. -/
theorem C41_difference {xs rs : List K} (hne : xs ≠ []) (hlen : rs.length = xs.length) :
    significance (finVec xs) (.paired (finVec rs)) =
      significance (finVec (List.zipWith (· - ·) xs rs)) (.scalar (.fin 0)) := by
  have hnv : ∀ l : List K, NoNaN (finVec l) := by intro l; simp [NoNaN, finVec]
  have hlz : (List.zipWith (· - ·) xs rs).length = xs.length := by simp [hlen]
  have hnz : finVec (List.zipWith (· - ·) xs rs) ≠ [] := by
    intro h
    have := congrArg List.length h
    simp only [finVec, List.length_map, hlz, List.length_nil] at this
    exact hne (List.eq_nil_of_length_eq_zero this)
  have key : ∀ xs rs : List K, rs.length = xs.length →
      countLe (finVec xs) (finVec rs) =
        ((finVec (List.zipWith (· - ·) xs rs)).countP fun v => decide (v ≤ .fin 0)) ∧
      countLe (finVec rs) (finVec xs) =
        ((finVec (List.zipWith (· - ·) xs rs)).countP fun v => decide (.fin 0 ≤ v)) := by
    intro xs
    induction xs with
    | nil => intro rs h; have : rs = [] := by simpa using h
             subst this; exact ⟨rfl, rfl⟩
    | cons x xs ih =>
      intro rs h
      rcases rs with _ | ⟨r, rs⟩
      · simp at h
      · obtain ⟨i1, i2⟩ := ih rs (by simpa using h)
        unfold countLe finVec at i1 i2 ⊢
        simp only [List.map_cons, List.zip_cons_cons, List.countP_cons, List.zipWith_cons_cons,
          Flt.fin_le_fin, sub_nonpos, sub_nonneg]
        exact ⟨by rw [i1], by rw [i2]⟩
  rw [significance_paired (by simpa [finVec] using hne) (by simpa [finVec] using hlen) (hnv _) (hnv _),
    C41_scalar_is_constant _ hnz, significance_paired hnz (by simp) (hnv _)
      (noNaN_replicate (by simp)), countLe_replicate_right, countLe_replicate_left,
    (key xs rs hlen).1, (key xs rs hlen).2]
  simp [finVec, hlen]

/-- C41: the p-value is 0 exactly when the whole sample is strictly on one side of the reference. -/
theorem C41_zero {boot r : List (Flt K)} (hne : boot ≠ []) (hlen : r.length = boot.length)
    (hb : NoNaN boot) (hr : NoNaN r) :
    significance boot (.paired r) = .ok (.fin 0) ↔
      (∀ q ∈ boot.zip r, q.1 < q.2) ∨ (∀ q ∈ boot.zip r, q.2 < q.1) := by
  obtain ⟨p, hp, h0, h1, e⟩ := C41_paired hne hlen hb hr
  have hn : (0 : K) < boot.length := by
    have : 0 < boot.length := List.length_pos_iff.2 hne
    exact_mod_cast this
  rw [hp]
  simp only [Except.ok.injEq, Flt.fin.injEq]
  have key : p = 0 ↔ ((boot.zip r).countP fun q => decide (q.1 ≤ q.2)) = 0 ∨
      ((boot.zip r).countP fun q => decide (q.2 ≤ q.1)) = 0 := by
    generalize ((boot.zip r).countP fun q => decide (q.1 ≤ q.2)) = a at e ⊢
    generalize ((boot.zip r).countP fun q => decide (q.2 ≤ q.1)) = b at e ⊢
    rw [e]
    constructor
    · intro h
      have : min (a : K) b = 0 := by
        rcases min_choice (1 : K) (2 * (min (a : K) b / boot.length)) with h' | h'
        · rw [h'] at h; exact absurd h one_ne_zero
        · rw [h'] at h
          have h2 : min (a : K) b / boot.length = 0 := by linarith
          rcases div_eq_zero_iff.1 h2 with h3 | h3
          · exact h3
          · exact absurd h3 hn.ne'
      rcases min_choice (a : K) b with h' | h'
      · left; rw [h'] at this; exact_mod_cast this
      · right; rw [h'] at this; exact_mod_cast this
    · intro h
      have : min (a : K) b = 0 := by
        rcases h with rfl | rfl
        · simp
        · simp
      rw [this]; simp
  rw [key, List.countP_eq_zero, List.countP_eq_zero]
  simp only [decide_eq_true_eq, not_le]
  exact or_comm

/-- C41: NaN anywhere, or a reference of another length, is rejected. -/
theorem C41_reject (boot : List (Flt K)) :
    (∀ ref, ¬ NoNaN boot → significance boot ref = .error .assertion) ∧
    (significance boot (.scalar .nan) = .error .assertion) ∧
    (∀ r, ¬ NoNaN r → significance boot (.paired r) = .error .assertion) ∧
    (∀ r : List (Flt K), r.length ≠ boot.length →
      significance boot (.paired r) = .error .assertion) := by
  have hn : ∀ l : List (Flt K), ¬ NoNaN l → (l.any fun v => v.isNaN) = true := by
    intro l h
    by_contra hc
    rw [Bool.not_eq_true, any_isNaN] at hc
    exact h hc
  refine ⟨fun ref h => ?_, ?_, fun r h => ?_, fun r h => ?_⟩
  · unfold significance
    split
    · rfl
    · rw [hn _ h]; rfl
  · unfold significance Ref.broadcast
    simp only [pyAssert_bind]
    split_ifs with h1 h2
    · simp at h2
    all_goals rfl
  · unfold significance
    split
    · rfl
    · simp only [hn _ h, pyAssert_bind]
      split_ifs with h1 h2
      · simp at h2
      all_goals rfl
  · unfold significance Ref.broadcast
    simp only [h, if_false]

example : significance (K := ℚ) (finVec [1, 2, 3, 4]) (.scalar (.fin 2)) = .ok (.fin 1) := by
  decide +kernel
example : significance (K := ℚ) (finVec [1, 2, 3, 4, 5]) (.scalar (.fin 1)) = .ok (.fin (2/5)) := by
  decide +kernel

/-! ## C42, C43 -/

/-- C42: a reference strictly outside the percentile interval has a p-value below `1 - confidence`. -/
theorem C42_outside_significant {boot : List (Flt K)} {c : K} {LB UB r : Flt K}
    (h : percentile boot (.fin c) = .ok (LB, UB)) (hr : r ≠ .nan) (hout : r < LB ∨ UB < r) :
    ∃ p : K, significance boot (.scalar r) = .ok (.fin p) ∧ p < 1 - c := by
  have hnan : NoNaN boot := by
    by_contra hc
    rw [(C38_reject boot _).1 hc] at h; cases h
  have hconf : 0 < c ∧ c < 1 := by
    by_contra hcon
    rw [(C38_reject boot (.fin c)).2.1] at h
    · cases h
    · rintro c' ⟨⟩
      by_contra h'
      push Not at h'
      exact hcon h'
  have hne : boot ≠ [] := by
    rintro rfl
    rw [(C38_reject [] (.fin c)).2.2 ⟨c, rfl, hconf⟩] at h; cases h
  have hn : 0 < boot.length := List.length_pos_iff.2 hne
  have hnK : (0 : K) < boot.length := by exact_mod_cast hn
  obtain ⟨L, U, e, s1, s2⟩ := percentile_ok hne hnan hconf.1 hconf.2
  rw [e] at h; cases h
  obtain ⟨hf, h2, hk1, hk2⟩ := lowIdx_facts hconf.1 hconf.2 hn
  obtain ⟨p, hp, -, -, ep⟩ := C41_scalar hne hnan hr
  refine ⟨p, hp, ?_⟩
  have hmin : (min ((boot.countP fun v => decide (v ≤ r) : Nat) : K)
      (boot.countP fun v => decide (r ≤ v) : Nat) : K) ≤ lowIdx c boot.length := by
    rcases hout with hlt | hlt
    · apply min_le_of_left_le
      have : (boot.countP fun v => decide (v ≤ r)) ≤ lowIdx c boot.length := by
        refine le_trans (countP_mono_imp ?_) s1.2.1
        intro a _ ha
        simp only [decide_eq_true_eq] at ha ⊢
        exact lt_of_le_of_lt ha hlt
      exact_mod_cast this
    · apply min_le_of_right_le
      have h3 := s2.2.2
      have hsum : boot.length = (boot.countP fun v => decide (r ≤ v)) +
          boot.countP fun v => decide (v < r) := by
        rw [List.length_eq_countP_add_countP (p := fun v => decide (r ≤ v)) (l := boot)]
        congr 2
        funext v
        rw [Bool.eq_iff_iff]; simp
      have h4 : (boot.countP fun v => decide (v ≤ UB)) ≤ boot.countP fun v => decide (v < r) := by
        apply countP_mono_imp
        intro a _ ha
        simp only [decide_eq_true_eq] at ha ⊢
        exact lt_of_le_of_lt ha hlt
      have : (boot.countP fun v => decide (r ≤ v)) ≤ lowIdx c boot.length := by omega
      exact_mod_cast this
  rw [ep]
  apply min_lt_of_right_lt
  rw [← mul_div_assoc, div_lt_iff₀ hnK]
  nlinarith [hconf.2]

/-- C43: with a p-value of at most `(1-c)*(n-1)/n` the reference is strictly outside the interval. -/
theorem C43_converse_bound {boot : List (Flt K)} {c : K} {LB UB r : Flt K} {p : K}
    (h : percentile boot (.fin c) = .ok (LB, UB)) (hr : r ≠ .nan)
    (hp : significance boot (.scalar r) = .ok (.fin p))
    (hle : p ≤ (1 - c) * ((boot.length : K) - 1) / boot.length) : r < LB ∨ UB < r := by
  have hnan : NoNaN boot := by
    by_contra hc
    rw [(C38_reject boot _).1 hc] at h; cases h
  have hconf : 0 < c ∧ c < 1 := by
    by_contra hcon
    rw [(C38_reject boot (.fin c)).2.1] at h
    · cases h
    · rintro c' ⟨⟩
      by_contra h'
      push Not at h'
      exact hcon h'
  have hne : boot ≠ [] := by
    rintro rfl
    rw [(C38_reject [] (.fin c)).2.2 ⟨c, rfl, hconf⟩] at h; cases h
  have hn : 0 < boot.length := List.length_pos_iff.2 hne
  have hnK : (0 : K) < boot.length := by exact_mod_cast hn
  have hnK1 : (1 : K) ≤ boot.length := by exact_mod_cast hn
  obtain ⟨L, U, e, s1, s2⟩ := percentile_ok hne hnan hconf.1 hconf.2
  rw [e] at h; cases h
  obtain ⟨hf, h2, hk1, hk2⟩ := lowIdx_facts hconf.1 hconf.2 hn
  obtain ⟨p', hp', -, -, ep⟩ := C41_scalar hne hnan hr
  rw [hp'] at hp
  simp only [Except.ok.injEq, Flt.fin.injEq] at hp
  subst hp
  rw [ep, le_div_iff₀ hnK] at hle
  have hlt1 : (1 - c) * ((boot.length : K) - 1) < 1 * boot.length := by nlinarith [hconf.1]
  have hle2 : 2 * (min ((boot.countP fun v => decide (v ≤ r) : Nat) : K)
      (boot.countP fun v => decide (r ≤ v) : Nat) : K) ≤ (1 - c) * ((boot.length : K) - 1) := by
    rcases min_choice (1 : K) (2 * (min ((boot.countP fun v => decide (v ≤ r) : Nat) : K)
      (boot.countP fun v => decide (r ≤ v) : Nat) / boot.length)) with h' | h'
    · rw [h'] at hle
      exact absurd hle (not_le.2 hlt1)
    · rw [h'] at hle
      have : 2 * (min ((boot.countP fun v => decide (v ≤ r) : Nat) : K)
          (boot.countP fun v => decide (r ≤ v) : Nat) / (boot.length : K)) * boot.length =
          2 * (min ((boot.countP fun v => decide (v ≤ r) : Nat) : K)
            (boot.countP fun v => decide (r ≤ v) : Nat) : K) := by
        field_simp
      rw [this] at hle
      exact hle
  have hidx : ∀ m : Nat, 2 * (m : K) ≤ (1 - c) * ((boot.length : K) - 1) → m ≤ lowIdx c boot.length := by
    intro m hm
    by_contra hc
    have : (lowIdx c boot.length : K) + 1 ≤ m := by exact_mod_cast (not_le.1 hc)
    linarith
  rcases min_choice ((boot.countP fun v => decide (v ≤ r) : Nat) : K)
    (boot.countP fun v => decide (r ≤ v) : Nat) with h' | h'
  · left
    rw [h'] at hle2
    have := hidx _ hle2
    by_contra hc
    have h3 := s1.2.2
    have : (boot.countP fun v => decide (v ≤ LB)) ≤ boot.countP fun v => decide (v ≤ r) := by
      apply countP_mono_imp
      intro a _ ha
      simp only [decide_eq_true_eq] at ha ⊢
      exact ha.trans (not_lt.1 hc)
    omega
  · right
    rw [h'] at hle2
    have := hidx _ hle2
    by_contra hc
    have h3 := s2.2.1
    have hsum : boot.length = (boot.countP fun v => decide (r ≤ v)) +
        boot.countP fun v => decide (v < r) := by
      rw [List.length_eq_countP_add_countP (p := fun v => decide (r ≤ v)) (l := boot)]
      congr 2
      funext v
      rw [Bool.eq_iff_iff]; simp
    have h4 : (boot.countP fun v => decide (v < r)) ≤ boot.countP fun v => decide (v < UB) := by
      apply countP_mono_imp
      intro a _ ha
      simp only [decide_eq_true_eq] at ha ⊢
      exact lt_of_lt_of_le ha (not_lt.1 hc)
    omega

end

/-- C43: the plain converse of C42 is false: ten values, confidence 0.58, a reference inside the
interval with p-value 0.4 < 0.42. -/
theorem C43_converse_fails :
    ∃ (boot : List (Flt ℚ)) (c : ℚ) (LB UB r : Flt ℚ) (p : ℚ),
      percentile boot (.fin c) = .ok (LB, UB) ∧ significance boot (.scalar r) = .ok (.fin p) ∧
      p < 1 - c ∧ LB ≤ r ∧ r ≤ UB :=
  ⟨finVec [1, 2, 3, 4, 5, 6, 7, 8, 9, 10], 58/100, .fin 2, .fin 9, .fin 2, 2/5,
    by decide +kernel, by decide +kernel, by norm_num, by simp, by rw [Flt.fin_le_fin]; norm_num⟩

end Mlp.Props
