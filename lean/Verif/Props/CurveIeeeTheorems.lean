import Verif.Props.CurveBootIeee
import Verif.Props.IeeeNearest
import Verif.Props.CurveRoundExamples

/-! # Property C127: statements about curves, areas and percentiles, and concrete cases -/

set_option linter.unusedSectionVars false

namespace Mlp.Props
open Mlp.Util Mlp.Perf Mlp.PerfR Mlp.Spec Mlp.Lemmas Mlp.Round Mlp.CurveR Mlp.Boot Mlp.BootR Mlp.Classif Mlp.Frame

section
variable {K : Type} [Field K] [LinearOrder K] [IsStrictOrderedRing K] [FloorRing K] {rnd : K → K} (hi : FollowsIeee rnd)
  {order : List K → SumTree K} (ho : IsOrder order)
include hi

/-- **C127, error bars, tests and intervals.**  The functions of `boot_util` return the same with the exponents of IEEE 754 as without limits
for exponents, for up to `2 ^ 53` replicates. -/
theorem C127_bootstrap {boot : List (Flt K)} (hl : boot.length ≤ 2 ^ 53) {confidence : Flt K}
    (hc : ∀ c, confidence = .fin c → IsDouble c) :
    percentileR rnd boot confidence = percentileR binary64 boot confidence ∧
    (∀ ref, significanceR rnd boot ref = significanceR binary64 boot ref) ∧
    ∀ original, (∀ x, original = .fin x → OnGrid 1074 1010 x) → (∀ b ∈ boot, ∀ x, b = .fin x → OnGrid 1074 1010 x) →
      errorBarR rnd boot original confidence = errorBarR binary64 boot original confidence :=
  ⟨(percentileR_ieee hi hc hl).1, fun ref => significanceR_ieee hi ref hl, fun _ ho hb => errorBarR_ieee hi hc hl hb ho⟩

include ho

/-- **C127, curves and areas.**  The curves of the package return the same with the exponents of IEEE 754 as without limits for exponents, and
so does the area under them. -/
theorem C127_curves (f : PackageCurve) {y : List Bool} {s : List (Flt K)} {W : Option (Mat K)} (h : CurveRange y s W) :
    f.fn rnd (sumBy order rnd) y s W = f.fn binary64 (sumBy order binary64) y s W ∧
    ∀ c thresholds, f.fn rnd (sumBy order rnd) y s W = .ok (c, thresholds) →
      areaR rnd (sumBy order rnd) c.x c.y c.kind = areaR binary64 (sumBy order binary64) c.x c.y c.kind := by
  obtain ⟨h1, h2⟩ := package_ieee hi ho f h
  refine ⟨h1, fun c thr hc => ?_⟩
  rw [h1] at hc
  exact (tame_area_ieee hi ho (h2 _ hc)).1

/-- **C127, success.**  In IEEE 754 double precision, with its limits for exponents: for a table of finite predictions of two labels and labels 0 and
1 the curve summary succeeds for every draw of the bootstrap, with ROC curves for up to 3000 samples, with precision-recall and (without
`pairwise_CI`) precision-recall-gain curves for up to 300. -/
theorem C127_table_success (other : Interp K) {t : PredTable K} (ht : GoodBinary t)
    (hgrid : ∀ c ∈ t.cols, ∀ x, Flt.fin x ∈ c.2 → OnGrid 1074 1022 x) {y : LabelVec}
    (hy : y.vals.length = t.nrows) (hk : y.kind = 'b' ∨ y.kind = 'i') (hr : ∀ v ∈ y.vals, v = 0 ∨ v = 1)
    {curves : List (Str × PackageCurve)} (hne : curves ≠ []) {pairwise : Bool}
    (hcurve : ∀ c ∈ curves, c.2 = .roc ∧ t.nrows ≤ 3000 ∨ t.nrows ≤ 300 ∧ (pairwise = true → c.2 ≠ .prg))
    {refMethod : Str} (href : refMethod ∈ t.methods) {xGrid : Option (List (Flt K))}
    (hg : ∀ l, xGrid = some l → ∃ grid : List K, l = finVec grid ∧ grid ≠ [] ∧ ∀ v ∈ grid, OnGrid 400 0 v ∧ 0 ≤ v)
    {n : Nat} (hn : 1 ≤ n) (hn2 : n ≤ 2 ^ 52) {draws : BootDraws}
    (hd : ∀ m c, (draws m c).length = n ∧ ∀ row ∈ draws m c, row.length = t.nrows ∧ row.sum = t.nrows)
    {conf : K} (h0 : 0 < conf) (h1 : conf < 1) (h2 : IsDouble conf) :
    ∃ out, curveSummaryTableR rnd (sumBy order rnd) other t y (curves.map fun c => (c.1, c.2.fn rnd (sumBy order rnd))) refMethod
      xGrid n pairwise (.fin conf) draws = .ok out := by
  have hn3 : t.nrows ≤ 3000 := by
    obtain ⟨c, l, rfl⟩ := List.exists_cons_of_ne_nil hne
    rcases hcurve c List.mem_cons_self with h | h <;> omega
  have hb : BootParams xGrid n (.fin conf) := by
    refine ⟨fun g hgg x hx => ?_, by exact_mod_cast hn2.trans (by norm_num), fun c hc => ?_⟩
    · obtain ⟨grid, rfl, -, h⟩ := hg g hgg
      obtain ⟨v, hv, e⟩ := List.mem_map.1 hx
      rw [Flt.fin.injEq] at e
      exact e ▸ (h v hv).1.mono le_rfl (by norm_num)
    · rw [Flt.fin.injEq] at hc
      exact hc ▸ h2
  rw [C127_table hi ho curves other (hy ▸ hn3.trans (by norm_num)) hgrid refMethod hb pairwise fun m c row hrow a ha => by
    have := List.le_sum_of_mem ha
    have := ((hd m c).2 row hrow).2
    omega]
  refine C115_table_success (sumBy_trees ho binary64) other ht hy hk hr (by simpa using hne) ?_ href ?_ hn hn2 hd h0 h1
  · intro c hc
    obtain ⟨d, hd, rfl⟩ := List.mem_map.1 hc
    rcases hcurve d hd with ⟨h, hn⟩ | ⟨hn, h⟩
    · rw [h]
      exact ⟨_, _, .roc, hn, fun _ => rfl⟩
    · cases hk : d.2 with
      | roc => exact ⟨_, _, .roc, hn.trans (by norm_num), fun _ => rfl⟩
      | recallPrecision => exact ⟨_, _, .recallPrecision, hn, fun _ => rfl⟩
      | prg => exact ⟨_, _, .prg, hn, fun hp => absurd hk (h hp)⟩
  · intro l hl
    obtain ⟨grid, h3, h4, h5⟩ := hg l hl
    refine ⟨grid, h3, h4, fun v hv => ⟨(h5 v hv).2, ?_⟩⟩
    have := (h5 v hv).1.2
    rw [abs_of_nonneg (h5 v hv).2, pow_zero] at this
    exact this

end

/-! ## Concrete cases -/

section
variable {K : Type} [Field K] [LinearOrder K] [IsStrictOrderedRing K] [FloorRing K]

/-- A rounding that follows IEEE 754 and gives 0 for an operation that overflows. -/
def ieeeOrZero (x : K) : K := match ieee64 x with | .fin y => y | _ => 0

theorem ieeeOrZero_follows : FollowsIeee (ieeeOrZero : K → K) := by
  intro x y h
  unfold ieeeOrZero
  rw [h]

/-- Adding from the left. -/
def leftOrder : List K → SumTree K
  | [] => .leaf 0
  | a :: l => l.foldl (fun t b => .node t (.leaf b)) (.leaf a)

theorem leftOrder_isOrder : IsOrder (leftOrder : List K → SumTree K) := by
  intro l hl
  obtain ⟨a, l, rfl⟩ := List.exists_cons_of_ne_nil hl
  have : ∀ (l : List K) (t : SumTree K), (l.foldl (fun t b => SumTree.node t (.leaf b)) t).leaves = t.leaves ++ l := by
    intro l
    induction l with
    | nil => intro t; simp
    | cons b l ih => intro t; rw [List.foldl_cons, ih]; simp [SumTree.leaves]
  simp only [leftOrder, this]
  simp [SumTree.leaves]

end

/-- The double next to 0.95. -/
theorem double95 : IsDouble (8556839292003942 / 2 ^ 53 : ℚ) :=
  C127_doubles.2 ⟨8556839292003942, -53, by norm_num, by norm_num, by norm_num, by norm_num⟩

/-- 1/3 is not a double. -/
example : ¬ IsDouble (1 / 3 : ℚ) := by
  rw [C127_doubles]
  rintro ⟨m, e, -, -, -, h⟩
  have h2 : m * 3 * (2 : ℚ) ^ e = 1 := by linarith
  rcases le_total 0 e with he | he
  · obtain ⟨k, rfl⟩ := Int.eq_ofNat_of_zero_le he
    have h3 : m * 3 * 2 ^ k = (1 : Int) := by exact_mod_cast h2
    have : (3 : Int) ∣ 1 := ⟨m * 2 ^ k, by rw [← h3]; ring⟩
    norm_num at this
  · obtain ⟨k, hk⟩ := Int.eq_ofNat_of_zero_le (a := -e) (by omega)
    obtain rfl : e = -k := by omega
    rw [zpow_neg, zpow_natCast] at h2
    have h3 : m * 3 = (2 : Int) ^ k := by
      have : (m : ℚ) * 3 = 2 ^ k := by field_simp at h2; linarith
      exact_mod_cast this
    have h4 : ∀ k : Nat, (2 : Int) ^ k % 3 ≠ 0 := by
      intro k
      induction k with
      | zero => decide
      | succ k ih => rw [pow_succ]; omega
    have := h4 k
    omega

/-- Twice the largest power of two overflows. -/
example : ieee64 (2 * 2 ^ 1023 : ℚ) = .pinf := by
  rw [C127_overflow.1, ← pow_succ']
  exact sub_le_self _ (by positivity)

/-- Halving the smallest double gives 0: the result is halfway between 0 and the smallest double, and the last bit of 0 is 0. -/
example : ∃ y : ℚ, ieee64 (1 / 2 * (2 : ℚ) ^ (-1074 : Int)) = .fin y ∧ LastBitZero y ∧ |1 / 2 * (2 : ℚ) ^ (-1074 : Int) - y| ≤
    |1 / 2 * (2 : ℚ) ^ (-1074 : Int) - 0| := by
  have h : ieee64 (1 / 2 * (2 : ℚ) ^ (-1074 : Int)) = .fin 0 := by decide +kernel
  have h0 := C127_nearest h
  refine ⟨0, h, ?_, le_rfl⟩
  refine (h0.2 ((2 : ℚ) ^ (-1074 : Int)) ⟨1, -1074, by norm_num, by norm_num, by norm_num, by norm_num⟩).2 (by positivity) ?_
  rw [sub_zero, show (1 / 2 * (2 : ℚ) ^ (-1074 : Int)) - 2 ^ (-1074 : Int) = -(1 / 2 * (2 : ℚ) ^ (-1074 : Int)) by ring, abs_neg]

theorem int_grid (n : Int) (h : |n| ≤ 2 ^ 10) : OnGrid 1074 1022 (n : ℚ) := by
  refine OnGrid.mono (k := 0) (e := 10) ⟨⟨n, by simp⟩, ?_⟩ (by norm_num) (by norm_num)
  rw [← Int.cast_abs]
  exact_mod_cast h

/-- The summary of two methods exists when operations overflow and underflow as in IEEE 754. -/
example (other : Interp ℚ) : ∃ out, curveSummaryTableR ieeeOrZero (sumBy leftOrder ieeeOrZero) other curveTable2 ⟨'i', [0, 1]⟩
    [("AUC".toList, rocCurveR ieeeOrZero (sumBy leftOrder ieeeOrZero)), ("AP".toList, recallPrecisionCurveR ieeeOrZero (sumBy leftOrder ieeeOrZero))]
    "a".toList none 2 true (.fin (8556839292003942 / 2 ^ 53)) (fun _ _ => [[1, 1], [2, 0]]) = .ok out := by
  refine C127_table_success (y := ⟨'i', [0, 1]⟩) (n := 2) (xGrid := none) (draws := fun _ _ => [[1, 1], [2, 0]])
    (curves := [("AUC".toList, .roc), ("AP".toList, .recallPrecision)]) ieeeOrZero_follows leftOrder_isOrder other goodBinary2 ?_
    rfl (Or.inr rfl) (by simp) (by simp) (fun c hc => Or.inr ⟨by decide, fun _ => ?_⟩) (by decide) (by simp) (by norm_num) (by norm_num)
    (fun _ _ => ⟨rfl, by simp [curveTable2]⟩) (by norm_num) (by norm_num) double95
  · intro c hc x hx
    simp only [curveTable2, List.mem_cons, List.not_mem_nil, or_false] at hc
    rcases hc with rfl | rfl | rfl | rfl <;> simp at hx
    · subst hx; exact_mod_cast int_grid (-1) (by norm_num)
    · rcases hx with rfl | rfl
      · exact_mod_cast int_grid (-2) (by norm_num)
      · exact_mod_cast int_grid 0 (by norm_num)
    · subst hx; exact_mod_cast int_grid (-1) (by norm_num)
    · subst hx; exact_mod_cast int_grid (-1) (by norm_num)
  · simp only [List.mem_cons, List.not_mem_nil, or_false] at hc
    rcases hc with rfl | rfl <;> simp

end Mlp.Props
