import Verif.Props.TableRound
import Verif.Props.CurvesDouble
import Verif.Props.RoundExact
import Verif.Lemmas.StudentT
import Verif.Lemmas.Bernstein
import Mathlib.Analysis.Complex.ExponentialBounds

/-!
# Properties C108 and C109 for IEEE 754 double precision

A library that rounds the exact results to double precision, and what C108 and C109 say for it.
-/

namespace Mlp.Props
open Mlp.Paper Mlp.PaperR Mlp.PerfR Mlp.BootR Mlp.Boot Mlp.Spec Mlp.Lemmas Mlp.Round

section
variable {K : Type} [Field K] [LinearOrder K] [IsStrictOrderedRing K] [FloorRing K]

theorem log_double {x : K} (hx : 0 < x) : Int.log 2 (2 * x) = Int.log 2 x + 1 := by
  have h2 : 0 < 2 * x := by linarith
  apply le_antisymm
  · have := Int.lt_zpow_succ_log_self (b := 2) one_lt_two x
    rw [Int.le_iff_lt_add_one, ← Int.lt_zpow_iff_log_lt one_lt_two h2]
    rw [zpow_add_one₀ (by norm_num)]
    push_cast at this ⊢
    linarith
  · have := Int.zpow_log_le_self (b := 2) one_lt_two hx
    rw [← Int.zpow_le_iff_le_log one_lt_two h2, zpow_add_one₀ (by norm_num)]
    push_cast at this ⊢
    linarith

theorem rnPos_double (p : Nat) {x : K} (hx : 0 < x) : rnPos p (2 * x) = 2 * rnPos p x := by
  have hu : ulp p (2 * x) = 2 * ulp p x := by
    unfold ulp
    rw [log_double hx, show Int.log 2 x + 1 - (p : ℤ) + 1 = (Int.log 2 x - p + 1) + 1 by ring, zpow_add_one₀ (by norm_num)]
    ring
  unfold rnPos
  rw [hu, mul_div_mul_left _ _ (two_ne_zero)]
  ring

theorem binary64_double (x : K) : binary64 (2 * x) = 2 * binary64 x := by
  unfold binary64 rn
  rcases lt_trichotomy x 0 with h | h | h
  · rw [if_neg (by linarith), if_pos (by linarith), if_neg (by linarith), if_pos h,
      show -(2 * x) = 2 * -x by ring, rnPos_double _ (by linarith)]
    ring
  · subst h; simp
  · rw [if_pos (by linarith), if_pos h, rnPos_double _ h]

/-- Adding in double precision from left to right. -/
def doubleSum : List K → K
  | [] => 0
  | a :: l => foldR binary64 a l

theorem doubleSum_trees : AddsAlongTrees (binary64 : K → K) doubleSum := by
  refine ⟨rfl, fun l hl => ?_⟩
  obtain ⟨a, l, rfl⟩ := List.exists_cons_of_ne_nil hl
  suffices h : ∀ (l : List K) (t : SumTree K), ∃ t' : SumTree K, t'.leaves.Perm (t.leaves ++ l) ∧
      foldR binary64 (t.eval binary64) l = t'.eval binary64 by
    obtain ⟨t', h1, h2⟩ := h l (.leaf a)
    exact ⟨t', h1, h2⟩
  intro l
  induction l with
  | nil => intro t; exact ⟨t, by simp, rfl⟩
  | cons b l ih =>
    intro t
    obtain ⟨t', h1, h2⟩ := ih (.node t (.leaf b))
    refine ⟨t', ?_, h2⟩
    simpa [SumTree.leaves] using h1

end

theorem log_cast (q : ℚ) : Int.log 2 (q : ℝ) = Int.log 2 q := by
  by_cases h : 0 < q
  · have h' : (0 : ℝ) < q := by exact_mod_cast h
    refine eq_of_forall_le_iff fun k => ?_
    rw [← Int.zpow_le_iff_le_log one_lt_two h', ← Int.zpow_le_iff_le_log one_lt_two h]
    have e : (((2 : ℕ) : ℝ) ^ k) = ((((2 : ℕ) : ℚ) ^ k : ℚ) : ℝ) := by push_cast; rfl
    rw [e, Rat.cast_le]
  · have h' := not_lt.1 h
    rw [Int.log_of_right_le_zero _ h', Int.log_of_right_le_zero _ (by exact_mod_cast h')]

theorem roundEven_cast (q : ℚ) : roundEven (q : ℝ) = roundEven q := by
  unfold roundEven
  rw [Rat.floor_cast]
  have e : (q : ℝ) - (⌊q⌋ : ℤ) = ((q - ⌊q⌋ : ℚ) : ℝ) := by push_cast; rfl
  have e2 : (1 / 2 : ℝ) = ((1 / 2 : ℚ) : ℝ) := by norm_num
  rw [e, e2]
  simp only [Rat.cast_lt]

/-- Rounding a rational number is the same over the rational and over the real numbers. -/
theorem binary64_cast (q : ℚ) : binary64 (q : ℝ) = ((binary64 q : ℚ) : ℝ) := by
  have h : ∀ q : ℚ, rnPos 53 (q : ℝ) = ((rnPos 53 q : ℚ) : ℝ) := by
    intro q
    have hu : ulp 53 (q : ℝ) = ((ulp 53 q : ℚ) : ℝ) := by
      unfold ulp
      rw [log_cast]
      push_cast
      rfl
    unfold rnPos
    rw [hu, ← Rat.cast_div, roundEven_cast]
    push_cast
    rfl
  unfold binary64 rn
  by_cases h1 : 0 < q
  · rw [if_pos h1, if_pos (by exact_mod_cast h1), h]
  · rw [if_neg h1, if_neg (by exact_mod_cast h1)]
    by_cases h2 : q < 0
    · rw [if_pos h2, if_pos (by exact_mod_cast h2), ← Rat.cast_neg, h]
      push_cast
      rfl
    · rw [if_neg h2, if_neg (by exact_mod_cast h2)]
      simp

noncomputable section

/-- A library in double precision: sums from left to right, the other functions correctly rounded.  Student's t distribution
needs at least one degree of freedom. -/
def doubleLib : Lib ℝ where
  rnd := binary64
  sum := doubleSum
  sqrt x := binary64 (Real.sqrt x)
  log x := binary64 (Real.log x)
  exp x := binary64 (Real.exp x)
  roots a b c := (quadRoots a b c).map fun r => (binary64 r.1, binary64 r.2)
  tInterval n c := (binary64 ((studentT (max n 1)).ppf ((1 - c) / 2)), binary64 ((studentT (max n 1)).ppf ((1 + c) / 2)))
  tSf n t := rF binary64 ((studentT (max n 1)).sf t)

theorem binary64_half : binary64 (1 / 2 : ℝ) = 1 / 2 := by
  have := binary64_exact (K := ℝ) 1 (-1) (by norm_num)
  simpa using this

/-- The logarithm of a number of at least 2 is above 1/2. -/
theorem half_le_log {x : ℝ} (hx : 2 ≤ x) : 1 / 2 ≤ Real.log x := by
  have h1 := Real.log_two_gt_d9
  have h2 := Real.log_le_log (by norm_num) hx
  linarith

/-- The library in double precision has all that C108 and C109 ask for. -/
theorem doubleLib_good : GoodLib doubleLib where
  rnd := binary64_floatRounding
  double := binary64_double
  sum := doubleSum_trees
  sqrt_zero := by simp [doubleLib, binary64_floatRounding.zero]
  sqrt_nonneg x _ := binary64_floatRounding.nonneg (Real.sqrt_nonneg x)
  sqrt_pos x _ hx := binary64_floatRounding.pos _ (Real.sqrt_pos.2 hx)
  log_pos x hx := by
    have h := binary64_floatRounding.mono (half_le_log hx)
    rwa [binary64_half] at h
  exp_nonneg x := binary64_floatRounding.nonneg (Real.exp_pos x).le
  roots a b c ha hb hc := by
    have hD : b ^ 2 ≤ b ^ 2 - 4 * a * c := by nlinarith
    have hs : b ≤ Real.sqrt (b ^ 2 - 4 * a * c) := Real.le_sqrt_of_sq_le hD
    have h0 : ¬ (b ^ 2 - 4 * a * c < 0) := by nlinarith [sq_nonneg b]
    refine ⟨_, _, by simp only [doubleLib, quadRoots, if_neg h0, Option.map_some]; rfl, .inl ?_, .inr ?_⟩
    · have h := binary64_floatRounding.mono (show (-b - Real.sqrt (b ^ 2 - 4 * a * c)) / (2 * a) ≤ 0 from
        div_nonpos_of_nonpos_of_nonneg (by linarith) (by linarith))
      rwa [binary64_floatRounding.zero] at h
    · exact binary64_floatRounding.nonneg (div_nonneg (by linarith) (by linarith))
  tInterval n c h0 h1 := by
    have hD := studentT_isSymmetric (ν := max n 1) (le_max_right _ _)
    refine binary64_floatRounding.mono ?_
    rw [← hD.strictMono.le_iff_le, hD.cdf_ppf _ (by linarith) (by linarith), hD.cdf_ppf _ (by linarith) (by linarith)]
    linarith
  tSf n t ht := by
    have hD := studentT_isSymmetric (ν := max n 1) (le_max_right _ _)
    have h1 := hD.half_le ht
    have h2 := hD.lt_one t
    refine ⟨_, rfl, binary64_floatRounding.nonneg (by linarith), ?_⟩
    have h := binary64_floatRounding.mono (show 1 - (studentT (max n 1)).cdf t ≤ 1 / 2 by linarith)
    rwa [binary64_half] at h
  tSf_inf n := ⟨binary64 0, rfl, by rw [binary64_floatRounding.zero], by rw [binary64_floatRounding.zero]; norm_num⟩
  tSf_nan n := rfl

theorem doubleLib_mean_cast (qs : List ℚ) : meanR doubleLib (qs.map fun (q : ℚ) => (q : ℝ)) =
    ((binary64 (doubleSum qs / (qs.length : ℚ)) : ℚ) : ℝ) := by
  have h : ∀ (l : List ℚ) (a : ℚ), foldR binary64 (a : ℝ) (l.map fun (q : ℚ) => (q : ℝ)) = ((foldR binary64 a l : ℚ) : ℝ) := by
    intro l
    induction l with
    | nil => intro a; rfl
    | cons b l ih =>
      intro a
      simp only [foldR, List.map_cons, List.foldl_cons] at ih ⊢
      rw [← Rat.cast_add, binary64_cast, ih]
  have hs : doubleSum (qs.map fun (q : ℚ) => (q : ℝ)) = ((doubleSum qs : ℚ) : ℝ) := by
    cases qs with
    | nil => simp [doubleSum]
    | cons a l => exact h l a
  unfold meanR
  change binary64 (doubleSum _ / _) = _
  rw [hs, List.length_map, ← Rat.cast_natCast, ← Rat.cast_div, binary64_cast]

/-- `0.1` as a double. -/
def tenth : ℚ := 3602879701896397 / 2 ^ 55

theorem tenth_eq : binary64 (1 / 10 : ℚ) = tenth := by decide +kernel

/-- **C109, an accident.**  Three losses of 0.1, within the limits 0 and 0.1: the computed mean is `0.10000000000000002`, and without
`pairwise_CI` the call ends in an AssertionError for every method of computing error bars. -/
theorem C109_fails {c : ℝ} (h0 : 0 < c) (h1 : c < 1) (method : EBMethod) (hme : method ≠ .other) (draws : Draws)
    (hd : method = .boot → ValidDraws 3 1000 draws.eb ∧ ValidDraws 3 1000 draws.test) (self : Bool) :
    cellOfR doubleLib (finVec [(tenth : ℝ), (tenth : ℝ), (tenth : ℝ)]) (finVec [(tenth : ℝ), (tenth : ℝ), (tenth : ℝ)]) self false
      (.fin c) method (.fin 0) (.fin (tenth : ℝ)) draws = .error .assertion := by
  have ht : (0 : ℝ) < tenth := by unfold tenth; norm_num
  have hv : ValidLimits (.fin 0) (.fin (tenth : ℝ)) := by
    refine ⟨by simp, by simp, ?_, by simp, by simp⟩
    simpa using ht.le
  have hw : Within (.fin 0) (.fin (tenth : ℝ)) [(tenth : ℝ), (tenth : ℝ), (tenth : ℝ)] := by
    intro x hx
    simp only [List.mem_cons, List.not_mem_nil, or_false, or_self] at hx
    subst hx
    simpa using ht.le
  refine (C109_cell doubleLib_good (u := 1 / 2 ^ 53) (by norm_num) binary64_relError binary64_halves (by norm_num) (by simp) rfl
    (by norm_num) hv hw hw h0 h1 method hme draws hd self).2 ?_
  rintro ⟨-, h⟩
  rw [show [(tenth : ℝ), (tenth : ℝ), (tenth : ℝ)] = [tenth, tenth, tenth].map (fun (q : ℚ) => (q : ℝ)) from rfl,
    doubleLib_mean_cast, Flt.fin_le_fin, Rat.cast_le] at h
  revert h
  decide +kernel

/-- **C108, means beyond the limits.**  With `pairwise_CI` the same losses are accepted, and the table shows a mean above the upper limit. -/
theorem C108_mean_outside {c : ℝ} (method : EBMethod) (draws : Draws) :
    ∃ m : ℝ, cellOfR doubleLib (finVec [(tenth : ℝ), (tenth : ℝ), (tenth : ℝ)]) (finVec [(tenth : ℝ), (tenth : ℝ), (tenth : ℝ)])
      true true (.fin c) method (.fin 0) (.fin (tenth : ℝ)) draws = .ok (.fin m, .nan, .nan) ∧ (tenth : ℝ) < m := by
  have ht : (0 : ℝ) ≤ tenth := by unfold tenth; norm_num
  refine ⟨meanR doubleLib [(tenth : ℝ), (tenth : ℝ), (tenth : ℝ)], ?_, ?_⟩
  · have h1 := (noNaN_any _).2 (noNaN_finVec [(tenth : ℝ), (tenth : ℝ), (tenth : ℝ)])
    have h2 : within (.fin 0) (.fin (tenth : ℝ)) (finVec [(tenth : ℝ), (tenth : ℝ), (tenth : ℝ)]) = true := by
      simp [within, finVec, ht]
    unfold cellOfR
    rw [pyAssert_bind, if_pos h1, pyAssert_bind, if_pos h2]
    simp only [meanFR_finVec (L := doubleLib) (xs := [(tenth : ℝ), (tenth : ℝ), (tenth : ℝ)]) (by simp), if_true, pure_eq_ok]
  · rw [show [(tenth : ℝ), (tenth : ℝ), (tenth : ℝ)] = [tenth, tenth, tenth].map (fun (q : ℚ) => (q : ℝ)) from rfl,
      doubleLib_mean_cast, Rat.cast_lt]
    decide +kernel

/-- **C109, integer limits.**  In double precision every integer `v` with `n·|v|` at most `2^53` is a harmless limit for `n` rows. -/
theorem C109_integer_limit {n : Nat} {v : ℤ} (h : n * |v| ≤ 2 ^ 53) : GridLimit binary64 n (.fin (v : ℝ)) := by
  intro k hk
  have hk' : |((k : ℤ) * v)| ≤ 2 ^ 53 := by
    rw [abs_mul, Nat.abs_cast]
    exact (mul_le_mul_of_nonneg_right (by exact_mod_cast hk) (abs_nonneg v)).trans h
  have := binary64_exact (K := ℝ) ((k : ℤ) * v) 0 hk'
  simpa using this

/-! ## Concrete cases -/

/-- The hypotheses of C108 for a table with two rows and limits 0 and 2. -/
theorem exTable_hyp : ∀ metric ∈ exTable.metrics, ∃ lower upper : Flt ℝ,
    LimitsOf [("L".toList, (Flt.fin 0, Flt.fin (2 : ℝ)))] metric lower upper ∧
      ValidLimits lower upper ∧ GridLimit binary64 exTable.nrows lower ∧ GridLimit binary64 exTable.nrows upper ∧
      ∀ method ∈ exTable.methods, ∃ xs : List ℝ,
        HasLoss exTable metric method (finVec xs) ∧ xs.length = exTable.nrows ∧ Within lower upper xs := by
  intro metric hm
  simp only [exTable, List.mem_singleton] at hm
  subst hm
  refine ⟨.fin 0, .fin 2, exTable_limits, ⟨by simp, by simp, by simp, by simp, by simp⟩, ?_, ?_, ?_⟩
  · have := C109_integer_limit (n := exTable.nrows) (v := 0) (by simp)
    simpa using this
  · have := C109_integer_limit (n := exTable.nrows) (v := 2) (by simp [exTable])
    simpa using this
  · intro method hm
    simp only [exTable, List.mem_cons, List.not_mem_nil, or_false] at hm
    rcases hm with rfl | rfl
    · exact ⟨_, exTable_A, rfl, by intro x hx; fin_cases hx <;> simp⟩
    · exact ⟨_, exTable_B, rfl, by intro x hx; fin_cases hx <;> first | (simp; done) | (simp; norm_num)⟩

/-- C108 and C109 apply to it in double precision: the table is produced with and without `pairwise_CI`. -/
example (pw : Bool) : ∃ out, lossSummaryTableR doubleLib exTable "A".toList pw (.fin (19 / 20))
    .t [("L".toList, (Flt.fin 0, Flt.fin 2))] (fun _ _ => ⟨[], []⟩) = .ok out := by
  have h53 : (exTable.nrows : ℝ) * (1 / 2 ^ 53) ≤ 1 / 1000000 := by norm_num [exTable]
  cases pw with
  | true =>
    obtain ⟨out, h, -⟩ := C108_table doubleLib_good (u := 1 / 2 ^ 53) (by norm_num) binary64_relError binary64_halves (by norm_num)
      (tbl := exTable) (refMethod := "A".toList) (c := 19 / 20) (by norm_num) (by norm_num) (methodEB := .t) (by simp)
      (limits := [("L".toList, (Flt.fin 0, Flt.fin 2))]) (draws := fun _ _ => ⟨[], []⟩) (by intro h; cases h) (by simp [exTable])
      (by simp [exTable]) h53 (by simp [exTable]) (fun metric hm => by
        obtain ⟨lo, hi, a, b, -, -, c⟩ := exTable_hyp metric hm
        exact ⟨lo, hi, a, b, c⟩)
    exact ⟨out, h⟩
  | false =>
    obtain ⟨out, h, -⟩ := C109_table_grid doubleLib_good (u := 1 / 2 ^ 53) (by norm_num) binary64_relError binary64_halves (by norm_num)
      (tbl := exTable) (refMethod := "A".toList) (c := 19 / 20) (by norm_num) (by norm_num) (methodEB := .t) (by simp)
      (limits := [("L".toList, (Flt.fin 0, Flt.fin 2))]) (draws := fun _ _ => ⟨[], []⟩) (by intro h; cases h) (by simp [exTable])
      (by simp [exTable]) h53 (by simp [exTable]) exTable_hyp
    exact ⟨out, h⟩

/-- C109: a table of one method with the three losses of `C109_fails`. -/
example : lossSummaryTableR doubleLib ⟨["L".toList], ["A".toList], 3, [(("L".toList, "A".toList),
      finVec [(tenth : ℝ), (tenth : ℝ), (tenth : ℝ)])]⟩ "A".toList false (.fin (19 / 20))
    .t [("L".toList, (Flt.fin 0, Flt.fin (tenth : ℝ)))] (fun _ _ => ⟨[], []⟩) = .error .assertion := by
  have ht : (0 : ℝ) ≤ tenth := by unfold tenth; norm_num
  have hx : HasLoss ⟨["L".toList], ["A".toList], 3, [(("L".toList, "A".toList),
      finVec [(tenth : ℝ), (tenth : ℝ), (tenth : ℝ)])]⟩ "L".toList "A".toList (finVec [(tenth : ℝ), (tenth : ℝ), (tenth : ℝ)]) :=
    ⟨[], [], rfl, by simp, by simp⟩
  have hlim : LimitsOf [("L".toList, (Flt.fin 0, Flt.fin (tenth : ℝ)))] "L".toList (.fin 0) (.fin (tenth : ℝ)) :=
    .given [] [] _ _ rfl (by simp)
  have h := C109_table doubleLib_good (u := 1 / 2 ^ 53) (by norm_num) binary64_relError binary64_halves (by norm_num)
      (tbl := ⟨["L".toList], ["A".toList], 3, [(("L".toList, "A".toList),
        finVec [(tenth : ℝ), (tenth : ℝ), (tenth : ℝ)])]⟩) (refMethod := "A".toList) (c := 19 / 20) (by norm_num) (by norm_num)
      (methodEB := .t) (by simp)
      (limits := [("L".toList, (Flt.fin 0, Flt.fin (tenth : ℝ)))]) (draws := fun _ _ => ⟨[], []⟩) (by intro h; cases h) (by simp)
      (by simp) (by norm_num) (by simp) (fun metric hm => by
        simp only [List.mem_singleton] at hm
        subst hm
        refine ⟨_, _, hlim, ⟨by simp, by simp, by simpa using ht, by simp, by simp⟩, fun method hm => ?_⟩
        simp only [List.mem_singleton] at hm
        subst hm
        refine ⟨_, hx, rfl, ?_⟩
        intro x hx
        simp only [List.mem_cons, List.not_mem_nil, or_false, or_self] at hx
        subst hx
        simpa using ht)
  refine h.2 "L".toList (by simp) "A".toList (by simp) _ _ _ hlim hx ?_
  rintro ⟨-, h⟩
  rw [show [(tenth : ℝ), (tenth : ℝ), (tenth : ℝ)] = [tenth, tenth, tenth].map (fun (q : ℚ) => (q : ℝ)) from rfl,
    doubleLib_mean_cast, Flt.fin_le_fin, Rat.cast_le] at h
  revert h
  decide +kernel

/-- C110: with Student's t distribution the exact library gives the exact table. -/
example (pw : Bool) : ∃ out, lossSummaryTableR (exactLib studentT) exTable "A".toList pw (.fin (19 / 20))
    .t [("L".toList, (Flt.fin 0, Flt.fin 2))] (fun _ _ => ⟨[], []⟩) = .ok out := by
  rw [C110_table]
  exact exTable_success pw

/-- C111: the mean of a million losses between 0 and 1 has an error of at most `3e-10` in double precision. -/
example {xs : List ℝ} (hl : xs.length = 1000000) (hx : ∀ x ∈ xs, 0 ≤ x ∧ x ≤ 1) :
    |meanR doubleLib xs - avg xs| ≤ 3 / 10000000000 := by
  have hne : xs ≠ [] := by rintro rfl; simp at hl
  have h1 := C111_scale hne hx
  have h2 := C111_mean (L := doubleLib) (u := 1 / 2 ^ 53) (by norm_num) binary64_relError doubleSum_trees hne (by
    rw [hl]; norm_num)
  rw [hl] at h2
  have h3 : avgAbs xs ≤ 1 := by simpa using h1
  refine h2.trans ?_
  have := avgAbs_nonneg xs
  norm_num
  nlinarith

end
end Mlp.Props
