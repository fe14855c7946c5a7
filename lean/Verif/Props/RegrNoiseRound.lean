import Verif.Props.RegrRound
import Verif.Props.RegrNoise
import Verif.Props.LossRange
import Mathlib.Analysis.Complex.ExponentialBounds

/-! # Property C122: the regressor `JustNoise` in floating point arithmetic, and the log loss in double precision -/

namespace Mlp.Props
open Mlp.Util Mlp.Spec Mlp.Regr Mlp.LossR Mlp.PaperR Mlp.PerfR Mlp.Round Mlp.Lemmas Mlp.Classif

variable {L : Lib ℝ} {u : ℝ}

/-- The computed variance vanishes exactly if all numbers are equal to the computed mean. -/
theorem varR_eq_zero (hL : GoodLib L) {xs : List ℝ} (hne : xs ≠ []) : varR L 0 xs = 0 ↔ ∀ x ∈ xs, x = meanR L xs := by
  have hn : (0 : ℝ) < xs.length := by exact_mod_cast List.length_pos_iff.2 hne
  unfold varR
  rw [hL.rnd.eq_zero_iff, sub_zero, div_eq_zero_iff, or_iff_left hn.ne']
  constructor
  · intro h x hx
    have h1 := sum_ge_mem hL.rnd hL.sum (l := xs.map fun (x : ℝ) => L.rnd (L.rnd (x - meanR L xs) * L.rnd (x - meanR L xs))) (by
      intro v hv
      obtain ⟨x, -, rfl⟩ := List.mem_map.1 hv
      exact hL.rnd.nonneg (mul_self_nonneg _)) (List.mem_map.2 ⟨x, hx, rfl⟩) (hL.rnd.idem _)
    rw [h] at h1
    have h2 : L.rnd (L.rnd (x - meanR L xs) * L.rnd (x - meanR L xs)) = 0 := le_antisymm h1 (hL.rnd.nonneg (mul_self_nonneg _))
    rwa [hL.rnd.eq_zero_iff, mul_self_eq_zero, hL.rnd.eq_zero_iff, sub_eq_zero] at h2
  · intro h
    have : (xs.map fun (x : ℝ) => L.rnd (L.rnd (x - meanR L xs) * L.rnd (x - meanR L xs))) = List.replicate xs.length 0 := by
      rw [List.eq_replicate_iff]
      refine ⟨by simp, fun v hv => ?_⟩
      obtain ⟨x, hx, rfl⟩ := List.mem_map.1 hv
      rw [h x hx, sub_self, hL.rnd.zero, mul_zero, hL.rnd.zero]
    rw [this]
    have h0 : ∀ v ∈ List.replicate xs.length (0 : ℝ), v ≤ 0 ∧ 0 ≤ v := by
      intro v hv
      rw [List.eq_of_mem_replicate hv]
      exact ⟨le_refl _, le_refl _⟩
    refine le_antisymm ?_ (sum_nonneg_of_trees hL.rnd hL.sum fun v hv => (h0 v hv).2)
    have hne' : List.replicate xs.length (0 : ℝ) ≠ [] := by
      intro e
      rw [List.replicate_eq_nil_iff] at e
      rw [e] at hn
      simp at hn
    have := C109_at_most hL hne' (h := 0) (by simp [hL.rnd.zero]) fun v hv => (h0 v hv).1
    by_contra hlt
    push Not at hlt
    have : 0 < meanR L (List.replicate xs.length (0 : ℝ)) := by
      unfold meanR
      refine hL.rnd.pos _ (div_pos hlt ?_)
      rw [List.length_replicate]; exact hn
    linarith

/-- **C122, JustNoise.**  `fit` accepts vectors of at least two targets, and nothing else; it computes the mean and a standard deviation that is at least 0, and 0 exactly if all targets are equal to the
computed mean. -/
theorem C122_noise_fit (hL : GoodLib L) :
    (∀ xs : List ℝ, 2 ≤ xs.length → ∃ s : ℝ, regrNoiseFitR L (realArr xs) = .ok (.fin (meanR L xs), .fin s) ∧ 0 ≤ s ∧
      s = L.sqrt (varR L 0 xs) ∧ (s = 0 ↔ ∀ x ∈ xs, x = meanR L xs)) ∧
    (∀ y : Arr, ¬ (y.shape.length = 1 ∧ 2 ≤ y.data.length) → regrNoiseFitR L y = .error .assertion) := by
  constructor
  · intro xs h
    have hne : xs ≠ [] := by rintro rfl; simp at h
    have hv : 0 ≤ varR L 0 xs := varR_nonneg_of hL.rnd.toMonoRounding hL.sum (by exact_mod_cast List.length_pos_iff.2 hne)
    refine ⟨L.sqrt (varR L 0 xs), ?_, hL.sqrt_nonneg _ hv, rfl, ?_⟩
    · unfold regrNoiseFitR
      rw [pyAssert_bind, if_pos (by simp [realArr]), pyAssert_bind, if_pos (by simpa [realArr] using h)]
      have e : (realArr xs).data = finVec xs := rfl
      rw [e, meanFR_finVec hne]
      unfold npStdR
      rw [if_pos (by simp [finVec, Flt.isFinite]), finVals_finVec]
      rfl
    · rw [← varR_eq_zero hL hne]
      refine ⟨sqrt_eq_zero_of hL.toSignLib (hL.rnd.idem _) hv, fun e => ?_⟩
      rw [e, hL.sqrt_zero]
  · intro y h
    unfold regrNoiseFitR
    rw [pyAssert_bind]
    split_ifs with h1
    · rw [pyAssert_bind, if_neg]
      intro h2
      exact h ⟨by simpa using h1, by simpa using h2⟩
    · rfl

/-- **C122, JustNoise predicts constants.** -/
theorem C122_noise_predict (hL : GoodLib L) {D : Type} (xTrain xTest : Features D) {xs : List ℝ} (h : 2 ≤ xs.length) {n : Nat} {rest : List Nat}
    (hx : xTest.shape = n :: rest) :
    Regr.trainPredict xTrain (realArr xs) xTest (regrNoiseR L) = .ok (constArr n (meanR L xs), constArr n (L.sqrt (varR L 0 xs))) := by
  obtain ⟨s, h1, -, rfl, -⟩ := (C122_noise_fit hL).1 xs h
  unfold Regr.trainPredict regrNoiseR
  rw [h1, ok_bind]
  simp only [pure_eq_ok, ok_bind]
  unfold Regr.predictOf
  simp only [shapeAt, hx, List.getElem?_cons_zero, ok_bind, Regr.justNoisePredict]
  simp [constArr, Arr.vec]

/-- **C122, degenerate targets.**  The losses reject the predictions of `JustNoise` if and only if all targets are equal to their computed mean.  So they accept them
whenever two targets differ.  If the targets are all equal to a number whose multiples are floats, such as an integer, the losses raise AssertionError. -/
theorem C122_noise_degenerate (hL : GoodLib L) {D : Type} (xTrain xTest : Features D) {xs : List ℝ} (h : 2 ≤ xs.length) {rest : List Nat}
    {ys : List ℝ} (hne : ys ≠ []) (hx : xTest.shape = ys.length :: rest) {mu std : Arr}
    (hp : Regr.trainPredict xTrain (realArr xs) xTest (regrNoiseR L) = .ok (mu, std)) :
    ((∃ x ∈ xs, ∃ x' ∈ xs, x ≠ x') → ¬ ∀ x ∈ xs, x = meanR L xs) ∧
    (∀ c, (∀ k : Nat, k ≤ xs.length → L.rnd (k * c) = k * c) → (∀ x ∈ xs, x = c) → ∀ x ∈ xs, x = meanR L xs) ∧
    ∀ loss ∈ [squareLossR L, absLossR L, logLossR L],
      ((∀ x ∈ xs, x = meanR L xs) → loss (realArr ys) mu std = .error .assertion) ∧
      ((¬ ∀ x ∈ xs, x = meanR L xs) → ∃ l : List ℝ, loss (realArr ys) mu std = .ok (finVec l) ∧ l.length = ys.length) := by
  rw [C122_noise_predict hL xTrain xTest h hx] at hp
  simp only [Except.ok.injEq, Prod.mk.injEq] at hp
  obtain ⟨rfl, rfl⟩ := hp
  have hxs : xs ≠ [] := by rintro rfl; simp at h
  obtain ⟨s, -, s0, es, hs⟩ := (C122_noise_fit hL).1 xs h
  rw [← es]
  refine ⟨?_, ?_, ?_⟩
  · rintro ⟨x, hx, x', hx', hn⟩ h
    exact hn ((h x hx).trans (h x' hx').symm)
  · intro c hc hall x hx
    rw [hall x hx]
    exact le_antisymm (C109_at_least hL hxs hc fun x hx => (hall x hx).ge) (C109_at_most hL hxs hc fun x hx => (hall x hx).le)
  · intro loss hl
    constructor
    · intro hall
      have hs0 : s = 0 := hs.2 hall
      have := C122_reject (L := L) (y := realArr ys) (mu := constArr ys.length (meanR L xs)) (std := constArr ys.length s) (by
        rintro ⟨n, hin⟩
        have : Flt.fin 0 < Flt.fin s := hin.positive (.fin s) (by
          simp only [constArr]
          exact List.mem_replicate.2 ⟨by simpa using hne, rfl⟩)
        rw [hs0, Flt.fin_lt_fin] at this
        exact lt_irrefl _ this) loss hl
      rw [this, if_pos (by simp [realArr])]
    · intro hall
      have hpos : 0 < s := lt_of_le_of_ne s0 fun e => hall (hs.1 e.symm)
      have hin : RegrInput (realArr ys) (constArr ys.length (meanR L xs)) (constArr ys.length s) ys.length := by
        rw [constArr_eq, constArr_eq]
        exact realArr_input hne (by simp) (by simp) (by intro x hx; rw [List.eq_of_mem_replicate hx]; exact hpos)
      have hok : ∀ c : ℝ, (constArr ys.length c).Ok := fun c => by simp [constArr, Arr.Ok]
      have key : ∀ f, (∃ l, loss (realArr ys) (constArr ys.length (meanR L xs)) (constArr ys.length s) = .ok l ∧
          PerPoint f (realArr ys) (constArr ys.length (meanR L xs)) (constArr ys.length s) l) →
          ∃ l : List ℝ, loss (realArr ys) (constArr ys.length (meanR L xs)) (constArr ys.length s) = .ok (finVec l) ∧ l.length = ys.length := by
        rintro f ⟨l, h1, h2⟩
        have e1 : constArr ys.length (meanR L xs) = ⟨[ys.length], finVec (List.replicate ys.length (meanR L xs))⟩ := by simp [constArr, finVec]
        have e2 : constArr ys.length s = ⟨[ys.length], finVec (List.replicate ys.length s)⟩ := by simp [constArr, finVec]
        have h3 := perPoint_eq (by simp) (by simp) (e1 ▸ e2 ▸ h2)
        exact ⟨_, h3 ▸ h1, by simp⟩
      simp only [List.mem_cons, List.not_mem_nil, or_false] at hl
      rcases hl with rfl | rfl | rfl
      · exact key _ (squareR_value L hin (realArr_ok _) (hok _) (hok _))
      · exact key _ (absR_value L hin (realArr_ok _) (hok _) (hok _))
      · exact key _ (logR_value L hin (realArr_ok _) (hok _) (hok _))

/-- **C122, constant targets by accident.**  Three targets of 0.1 in double precision are not equal to their computed mean, so the standard deviation is positive and the losses
accept the predictions; with exact arithmetic (C87_degenerate) and for three targets of 1 they raise AssertionError. -/
theorem C122_noise_accident {D : Type} (xTrain xTest : Features D) {rest : List Nat} {ys : List ℝ} (hne : ys ≠ []) (hx : xTest.shape = ys.length :: rest) :
    (∃ mu std, Regr.trainPredict xTrain (realArr [(tenth : ℝ), (tenth : ℝ), (tenth : ℝ)]) xTest (regrNoiseR doubleLib) = .ok (mu, std) ∧
      ∀ loss ∈ [squareLossR doubleLib, absLossR doubleLib, logLossR doubleLib], ∃ l : List ℝ, loss (realArr ys) mu std = .ok (finVec l)) ∧
    ∃ mu std, Regr.trainPredict xTrain (realArr [1, 1, 1]) xTest (regrNoiseR doubleLib) = .ok (mu, std) ∧
      ∀ loss ∈ [squareLossR doubleLib, absLossR doubleLib, logLossR doubleLib], loss (realArr ys) mu std = .error .assertion := by
  constructor
  · refine ⟨_, _, C122_noise_predict doubleLib_good xTrain xTest (by simp) hx, fun loss hl => ?_⟩
    obtain ⟨-, -, h⟩ := C122_noise_degenerate doubleLib_good xTrain xTest (xs := [(tenth : ℝ), (tenth : ℝ), (tenth : ℝ)]) (by simp) hne hx
      (C122_noise_predict doubleLib_good xTrain xTest (by simp) hx)
    obtain ⟨l, h1, -⟩ := (h loss hl).2 (by
      intro hall
      have := hall _ (List.mem_cons_self ..)
      rw [show [(tenth : ℝ), (tenth : ℝ), (tenth : ℝ)] = [tenth, tenth, tenth].map (fun (q : ℚ) => (q : ℝ)) from rfl,
        doubleLib_mean_cast] at this
      have h2 : tenth ≠ binary64 (doubleSum [tenth, tenth, tenth] / (([tenth, tenth, tenth].length : ℕ) : ℚ)) := by decide +kernel
      exact h2 (by exact_mod_cast this))
    exact ⟨l, h1⟩
  · refine ⟨_, _, C122_noise_predict doubleLib_good xTrain xTest (by simp) hx, fun loss hl => ?_⟩
    obtain ⟨-, h2, h⟩ := C122_noise_degenerate doubleLib_good xTrain xTest (xs := [1, 1, 1]) (by simp) hne hx
      (C122_noise_predict doubleLib_good xTrain xTest (by simp) hx)
    refine (h loss hl).1 (h2 1 (fun k hk => ?_) (by simp))
    rw [mul_one]
    exact binary64_nat (n := 3) (by norm_num) k hk

/-! ### The log loss in double precision -/

/-- The constant of the log density in double precision. -/
theorem normLogCR_double : |normLogCR doubleLib - Real.log (2 * Real.pi) / 2| ≤ 1 / 10 ^ 15 * (Real.log (2 * Real.pi) / 2) := by
  obtain ⟨d1, b1, e1⟩ := relError_factor (binary64_relError (K := ℝ)) Real.pi
  have e2 : binary64 (2 * binary64 Real.pi) = 2 * binary64 Real.pi := by
    rw [binary64_double, binary64_floatRounding.idem]
  have e3 : normLogCR doubleLib = binary64 (Real.log (binary64 (Real.sqrt (2 * binary64 Real.pi)))) := by
    unfold normLogCR doubleLib
    simp only [e2]
  rw [e3, e1]
  obtain ⟨d2, b2, e4⟩ := relError_factor (binary64_relError (K := ℝ)) (Real.sqrt (2 * (Real.pi * (1 + d1))))
  rw [e4]
  obtain ⟨d3, b3, e5⟩ := relError_factor (binary64_relError (K := ℝ)) (Real.log (Real.sqrt (2 * (Real.pi * (1 + d1))) * (1 + d2)))
  rw [e5]
  rw [_root_.abs_le] at b1 b2
  have hp := Real.pi_pos
  have p1 : 0 < 1 + d1 := by
    have : (1 : ℝ) / 2 ^ 53 ≤ 1 / 2 := by norm_num
    linarith
  have p2 : 0 < 1 + d2 := by
    have : (1 : ℝ) / 2 ^ 53 ≤ 1 / 2 := by norm_num
    linarith
  have hlog : Real.log (Real.sqrt (2 * (Real.pi * (1 + d1))) * (1 + d2)) = Real.log (2 * Real.pi) / 2 + (Real.log (1 + d1) / 2 + Real.log (1 + d2)) := by
    rw [Real.log_mul (Real.sqrt_pos.2 (by positivity)).ne' p2.ne', Real.log_sqrt (by positivity), ← mul_assoc, Real.log_mul (by positivity) p1.ne']
    ring
  rw [hlog]
  have hb : ∀ d : ℝ, -(1 / 2 ^ 53) ≤ d → d ≤ 1 / 2 ^ 53 → |Real.log (1 + d)| ≤ 2 / 2 ^ 53 := by
    intro d h1 h2
    have hd : 0 < 1 + d := by
      have : (1 : ℝ) / 2 ^ 53 ≤ 1 / 2 := by norm_num
      linarith
    rw [_root_.abs_le]
    constructor
    · have := Real.one_sub_inv_le_log_of_pos hd
      have h3 : 1 - (1 + d)⁻¹ = d / (1 + d) := by field_simp; ring
      rw [h3] at this
      refine le_trans ?_ this
      rw [le_div_iff₀ hd]
      norm_num at h1 h2 ⊢
      nlinarith
    · have := Real.log_le_sub_one_of_pos hd
      have h4 : (1 : ℝ) / 2 ^ 53 ≤ 2 / 2 ^ 53 := by norm_num
      linarith
  have k1 := hb d1 b1.1 b1.2
  have k2 := hb d2 b2.1 b2.2
  set C := Real.log (2 * Real.pi) / 2 with hC
  have hC0 : 9 / 10 ≤ C := by
    have h1 : Real.exp (9 / 5) ≤ 2 * Real.pi := by
      have h2 := Real.pi_gt_d2
      have h3 : Real.exp (9 / 5) ≤ 6.2 := by
        have h4 := Real.exp_one_lt_d9
        have h5 : Real.exp (9 / 5) ^ 5 ≤ 6.2 ^ 5 := by
          rw [← Real.exp_nat_mul]
          have : ((5 : ℕ) : ℝ) * (9 / 5) = ((9 : ℕ) : ℝ) * 1 := by norm_num
          rw [this, Real.exp_nat_mul]
          calc Real.exp 1 ^ 9 ≤ 2.7182818286 ^ 9 := by gcongr
            _ ≤ 6.2 ^ 5 := by norm_num
        exact le_of_pow_le_pow_left₀ (by norm_num) (by norm_num) h5
      norm_num at h2 h3 ⊢
      linarith
    have := (Real.le_log_iff_exp_le (by positivity)).2 h1
    rw [hC]
    linarith
  have e : (C + (Real.log (1 + d1) / 2 + Real.log (1 + d2))) * (1 + d3) - C =
      (Real.log (1 + d1) / 2 + Real.log (1 + d2)) * (1 + d3) + C * d3 := by ring
  rw [e]
  have k3 : |Real.log (1 + d1) / 2 + Real.log (1 + d2)| ≤ 3 / 2 ^ 53 := by
    refine (abs_add_le _ _).trans ?_
    rw [abs_div, abs_two]
    linarith
  have k4 : |1 + d3| ≤ 1 + 1 / 2 ^ 53 := (abs_add_le _ _).trans (by rw [abs_one]; linarith)
  calc |(Real.log (1 + d1) / 2 + Real.log (1 + d2)) * (1 + d3) + C * d3|
      ≤ |Real.log (1 + d1) / 2 + Real.log (1 + d2)| * |1 + d3| + C * |d3| := by
        refine (abs_add_le _ _).trans ?_
        rw [abs_mul, abs_mul, abs_of_pos (show 0 < C by linarith)]
    _ ≤ 3 / 2 ^ 53 * (1 + 1 / 2 ^ 53) + C * (1 / 2 ^ 53) := by gcongr
    _ ≤ 1 / 10 ^ 15 * C := by
        norm_num
        linarith

/-- **C122, log loss in double precision.**  It is correct up to 2e-15 times the sum of the sizes of its three terms. -/
theorem C122_log_double {y mu std : Arr} {n : Nat} (h : RegrInput y mu std n) (hy : y.Ok) (hm : mu.Ok) (hs : std.Ok) :
    ∃ l, logLossR doubleLib y mu std = .ok l ∧ PerPointR (fun a m s v =>
      |v - (Real.log s + Real.log (2 * Real.pi) / 2 + (a - m) ^ 2 / (2 * s ^ 2))| ≤
        2 / 10 ^ 15 * (|Real.log s| + Real.log (2 * Real.pi) / 2 + (a - m) ^ 2 / (2 * s ^ 2))) y mu std l := by
  obtain ⟨l, h1, h2, h3⟩ := C122_log (L := doubleLib) (u := 1 / 2 ^ 53) (g := 1 / 10 ^ 15) (by norm_num) binary64_relError (by norm_num) normLogCR_double h hy hm hs (by
    intro s _
    refine (binary64_relError (K := ℝ) _).trans ?_
    gcongr
    norm_num)
  refine ⟨l, h1, h2, fun i a m s e1 e2 e3 => ?_⟩
  obtain ⟨v, f1, f2⟩ := h3 i a m s e1 e2 e3
  refine ⟨v, f1, f2.trans ?_⟩
  refine mul_le_mul_of_nonneg_right (by norm_num) ?_
  have : 0 ≤ Real.log (2 * Real.pi) := Real.log_nonneg (by linarith [Real.pi_gt_three])
  positivity

/-- Examples: one point, target 2, mean 1/3, standard deviation 3. -/
example : ∃ l, logLossR doubleLib (realArr [2]) (realArr [1 / 3]) (realArr [3]) = .ok l ∧ l.length = 1 := by
  obtain ⟨l, h, h2, -⟩ := C122_log_double (realArr_input (ys := [2]) (ms := [1 / 3]) (ss := [3]) (by simp) rfl rfl (by simp)) (realArr_ok _) (realArr_ok _) (realArr_ok _)
  exact ⟨l, h, by simpa [realArr] using h2⟩

/-- A mean of 1 is closer to the target 2 than a mean of 7. -/
example : ∃ l l', logLossR doubleLib (realArr [2]) (realArr [1]) (realArr [3]) = .ok l ∧ logLossR doubleLib (realArr [2]) (realArr [7]) (realArr [3]) = .ok l' ∧
    List.Forall₂ (· ≤ ·) l l' :=
  C122_closer doubleLib_good (realArr_input (ys := [2]) (ms := [1]) (ss := [3]) (by simp) rfl rfl (by simp))
    (realArr_input (ys := [2]) (ms := [7]) (ss := [3]) (by simp) rfl rfl (by simp)) (realArr_ok _) (realArr_ok _) (realArr_ok _) (realArr_ok _) (by
      intro i a m m' h1 h2 h3
      cases i with
      | zero => simp [realArr] at h1 h2 h3; subst h1 h2 h3; norm_num
      | succ i => simp [realArr] at h1) _ (by simp)

end Mlp.Props
