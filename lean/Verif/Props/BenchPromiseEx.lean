import Verif.Props.BenchPromise
import Verif.Props.BenchPromiseRegr
import Verif.Props.LargeSampleTable

/-! # C141: concrete cases -/

namespace Mlp.Props
open Mlp Mlp.Util Mlp.Spec Mlp.Classif Mlp.Lemmas Mlp.Frame Mlp.Boot Mlp.Perf Mlp.Paper MeasureTheory ProbabilityTheory Filter Topology
open Mlp.Regr (Arr stdRegrLoss)

/-! ### A population of coin tosses -/

theorem fairCoin_integral (g : Bool → ℝ) : ∫ b, g b ∂fairCoin = (g true + g false) / 2 := by
  unfold fairCoin
  rw [PMF.integral_eq_sum]
  have h1 : ((PMF.bernoulli (1 / 2) (by norm_num)) true).toReal = 1 / 2 := by
    rw [PMF.bernoulli_apply]; norm_num
  have h2 : ((PMF.bernoulli (1 / 2) (by norm_num)) false).toReal = 1 / 2 := by
    rw [PMF.bernoulli_apply]; norm_num
  simp only [Fintype.sum_bool, h1, h2, smul_eq_mul]
  ring

theorem tosses_drawn (n : ℕ) : Drawn (Measure.pi fun _ : Fin n => fairCoin) fairCoin (fun i (ω : Fin n → Bool) => ω i) where
  meas i := measurable_pi_apply i
  law i := (measurePreserving_eval (fun _ : Fin n => fairCoin) i).map_eq
  indep := iIndepFun_pi (X := fun (_ : Fin n) (b : Bool) => b) fun _ => aemeasurable_id

theorem stream_drawn : Drawn (Measure.infinitePi fun _ : ℕ => fairCoin) fairCoin (fun i (ω : ℕ → Bool) => ω i) where
  meas i := measurable_pi_apply i
  law i := Measure.infinitePi_map_eval (fun _ : ℕ => fairCoin) i
  indep := iIndepFun_infinitePi (X := fun (_ : ℕ) (b : Bool) => b) fun _ => measurable_id

/-- The label is 1 for heads. -/
def coinLab (b : Bool) : ℕ := if b then 1 else 0

/-- Predictions: `heads` gives label 1 the probability 3/4, `tails` gives it 1/4, and `fair` 1/2, each for every point. -/
noncomputable def coinRow (m : Str) (_ : Bool) : List (Flt ℝ) :=
  if m = "heads".toList then [.fin (Real.log (1 / 4)), .fin (Real.log (3 / 4))]
  else if m = "tails".toList then [.fin (Real.log (3 / 4)), .fin (Real.log (1 / 4))] else [.fin (Real.log (1 / 2)), .fin (Real.log (1 / 2))]

/-- The estimator that predicts the row of the given name for each test point. -/
noncomputable def coinEst (m : Str) : Classif.Estimator (List Bool) := fun _ _ =>
  .ok ⟨fun x => .ok ⟨2, x.data.map (coinRow m)⟩, fun _ => .error .typeError⟩

noncomputable def coinMethods : List (Str × Classif.Estimator (List Bool)) :=
  [("heads".toList, coinEst "heads".toList), ("tails".toList, coinEst "tails".toList), ("fair".toList, coinEst "fair".toList)]

def coinTrainX : Features (List Bool) := ⟨[1, 1], 'f', [true]⟩
def coinTestX {n : ℕ} (s : Fin n → Bool) : Features (List Bool) := ⟨[n, 1], 'f', List.ofFn s⟩
def coinTestY {n : ℕ} (s : Fin n → Bool) : LabelVec := ⟨'i', List.ofFn fun i => (coinLab (s i) : ℤ)⟩

theorem coinRow_finite (m : Str) (b : Bool) : (coinRow m b).length = 2 ∧ ∀ v ∈ coinRow m b, (max .ninf v).isFinite = true := by
  unfold coinRow
  split_ifs <;> simp [Flt.isFinite]

theorem coin_testSet {n : ℕ} (s : Fin n → Bool) : TestSet coinTrainX ⟨'i', [1]⟩ (coinTestX s) (coinTestY s) 2 coinMethods .ninf
    (fun i => coinLab (s i)) (fun m i => coinRow m (s i)) where
  labels := rfl
  range i := by unfold coinLab; split <;> norm_num
  preds m hm := by
    have : m.2 = coinEst m.1 := by
      simp only [coinMethods, List.mem_cons, List.not_mem_nil, or_false] at hm
      rcases hm with rfl | rfl | rfl <;> rfl
    rw [this]
    refine ⟨_, rfl, Or.inl ?_⟩
    simp only [coinTestX, List.map_ofFn]
    rfl
  width m _ i := (coinRow_finite m.1 (s i)).1
  finite m _ i := (coinRow_finite m.1 (s i)).2

theorem coin_predicted (b : Bool) : predicted .ninf (coinRow "heads".toList b) = [1 / 4, 3 / 4] ∧
    predicted .ninf (coinRow "tails".toList b) = [3 / 4, 1 / 4] ∧ predicted .ninf (coinRow "fair".toList b) = [1 / 2, 1 / 2] := by
  have e1 := Real.exp_log (show (0 : ℝ) < 1 / 4 by norm_num)
  have e2 := Real.exp_log (show (0 : ℝ) < 3 / 4 by norm_num)
  have e3 := Real.exp_log (show (0 : ℝ) < 1 / 2 by norm_num)
  refine ⟨?_, ?_, ?_⟩ <;> unfold predicted coinRow <;>
    simp [prob, -Real.log_inv, -one_div, e1, e2, e3] <;> norm_num

def coinLimits : List (Str × (Flt ℝ × Flt ℝ)) :=
  [("NLL".toList, (.fin 0, .fin 10)), ("Brier".toList, (.fin 0, .fin 10)), ("sphere".toList, (.fin 0, .fin 10)), ("zero_one".toList, (.fin 0, .fin 10))]

theorem coin_prob {m : Str} (hm : m ∈ ["heads".toList, "tails".toList, "fair".toList]) (b : Bool) :
    ∃ p q : ℝ, predicted .ninf (coinRow m b) = [p, q] ∧ 1 / 4 ≤ p ∧ p ≤ 3 / 4 ∧ 1 / 4 ≤ q ∧ q ≤ 3 / 4 := by
  simp only [List.mem_cons, List.not_mem_nil, or_false] at hm
  rcases hm with rfl | rfl | rfl
  · exact ⟨_, _, (coin_predicted b).1, by norm_num⟩
  · exact ⟨_, _, (coin_predicted b).2.1, by norm_num⟩
  · exact ⟨_, _, (coin_predicted b).2.2, by norm_num⟩

theorem coin_bounds {lf : Str × (List ℝ → ℕ → ℝ)} (hlf : lf ∈ [("NLL".toList, nllAt), ("Brier".toList, brier2At), ("sphere".toList, sphere2At),
    ("zero_one".toList, zeroOne2At)]) {m : Str} (hm : m ∈ ["heads".toList, "tails".toList, "fair".toList]) (b : Bool) :
    0 ≤ lf.2 (predicted .ninf (coinRow m b)) (coinLab b) ∧ lf.2 (predicted .ninf (coinRow m b)) (coinLab b) ≤ 10 := by
  obtain ⟨p, q, e, hp0, hp1, hq0, hq1⟩ := coin_prob hm b
  rw [e]
  simp only [List.mem_cons, List.not_mem_nil, or_false] at hlf
  have key : ∀ r : ℝ, 1 / 4 ≤ r → r ≤ 3 / 4 → 0 ≤ -Real.log r ∧ -Real.log r ≤ 10 := by
    intro r h0 h1
    have hl := Real.log_le_sub_one_of_pos (show (0 : ℝ) < r by linarith)
    have hl2 := Real.one_sub_inv_le_log_of_pos (show (0 : ℝ) < r by linarith)
    have : r⁻¹ ≤ 4 := by
      rw [show (4 : ℝ) = (1 / 4)⁻¹ by norm_num]
      exact inv_anti₀ (by norm_num) h0
    constructor <;> linarith
  have hsq : Real.sqrt 2 ≥ 4 / 3 := Real.le_sqrt_of_sq_le (by norm_num)
  have hden : 1 / Real.sqrt 2 ≤ 3 / 4 := by
    rw [div_le_iff₀ (by linarith)]
    linarith
  have key2 : ∀ r : ℝ, 0 ≤ r → r ^ 2 ≤ p ^ 2 + q ^ 2 →
      0 ≤ (1 - r / Real.sqrt (p ^ 2 + q ^ 2)) / (1 - 1 / Real.sqrt 2) ∧ (1 - r / Real.sqrt (p ^ 2 + q ^ 2)) / (1 - 1 / Real.sqrt 2) ≤ 10 := by
    intro r h0 h1
    have a : r ≤ Real.sqrt (p ^ 2 + q ^ 2) := Real.le_sqrt_of_sq_le h1
    have hpos : 0 < Real.sqrt (p ^ 2 + q ^ 2) := Real.sqrt_pos.2 (by positivity)
    have b1 : r / Real.sqrt (p ^ 2 + q ^ 2) ≤ 1 := (div_le_one hpos).2 a
    have b0 : 0 ≤ r / Real.sqrt (p ^ 2 + q ^ 2) := by positivity
    refine ⟨div_nonneg (by linarith) (by linarith), ?_⟩
    rw [div_le_iff₀ (by linarith)]
    linarith
  unfold coinLab
  rcases hlf with rfl | rfl | rfl | rfl <;> cases b <;> dsimp only
  · exact key p hp0 hp1
  · exact key q hq0 hq1
  · simp only [brier2At, pr, List.getD_cons_zero, List.getD_cons_succ]
    constructor
    · positivity
    · norm_num
      nlinarith
  · simp only [brier2At, pr, List.getD_cons_zero, List.getD_cons_succ]
    constructor
    · positivity
    · norm_num
      nlinarith
  · exact key2 p (by linarith) (by nlinarith [sq_nonneg q])
  · exact key2 q (by linarith) (by nlinarith [sq_nonneg p])
  · unfold zeroOne2At; split_ifs <;> norm_num
  · unfold zeroOne2At; split_ifs <;> norm_num

theorem coinLimits_of {lf : Str × (List ℝ → ℕ → ℝ)} (hlf : lf ∈ [("NLL".toList, nllAt), ("Brier".toList, brier2At), ("sphere".toList, sphere2At),
    ("zero_one".toList, zeroOne2At)]) : LimitsOf coinLimits lf.1 (.fin 0) (.fin 10) := by
  simp only [List.mem_cons, List.not_mem_nil, or_false] at hlf
  rcases hlf with rfl | rfl | rfl | rfl
  · exact .given [] _ _ _ rfl (by simp)
  · exact .given [("NLL".toList, (.fin 0, .fin 10))] _ _ _ rfl (by simp)
  · exact .given [("NLL".toList, (.fin 0, .fin 10)), ("Brier".toList, (.fin 0, .fin 10))] _ _ _ rfl (by simp)
  · exact .given [("NLL".toList, (.fin 0, .fin 10)), ("Brier".toList, (.fin 0, .fin 10)), ("sphere".toList, (.fin 0, .fin 10))] _ _ _ rfl (by simp)

theorem coin_setup {method refMethod : Str} (hm : method ∈ ["heads".toList, "tails".toList, "fair".toList])
    (hr : refMethod ∈ ["heads".toList, "tails".toList, "fair".toList]) :
    ClassSetup 2 coinMethods stdClassLoss stdBinaryCurves refMethod .ninf coinLimits coinLab coinRow ("zero_one".toList, hardLoss none) zeroOne2At
      method (.fin 0) (.fin 10) ∧
    ClassSetup 2 coinMethods stdClassLoss stdBinaryCurves refMethod .ninf coinLimits coinLab coinRow ("NLL".toList, Classif.logLoss) nllAt
      method (.fin 0) (.fin 10) := by
  have hnames : (coinMethods.map fun m => m.1) = ["heads".toList, "tails".toList, "fair".toList] := rfl
  refine ⟨⟨by rw [hnames]; decide, by decide, by simp [stdClassLoss], scores_zero_one, by decide, by rw [hnames]; exact hm, by rw [hnames]; exact hr,
    coinLimits_of (lf := ("zero_one".toList, zeroOne2At)) (by simp), by simp [ValidLimits], fun _ _ => .of_discrete, ?_⟩,
    ⟨by rw [hnames]; decide, by decide, by simp [stdClassLoss], scores_nll 2, by decide, by rw [hnames]; exact hm, by rw [hnames]; exact hr,
    coinLimits_of (lf := ("NLL".toList, nllAt)) (by simp), by simp [ValidLimits], fun _ _ => .of_discrete, ?_⟩⟩
  · rintro m (rfl | rfl) s
    · simpa using coin_bounds (lf := ("zero_one".toList, zeroOne2At)) (by simp) hm s
    · simpa using coin_bounds (lf := ("zero_one".toList, zeroOne2At)) (by simp) hr s
  · rintro m (rfl | rfl) s
    · simpa using coin_bounds (lf := ("NLL".toList, nllAt)) (by simp) hm s
    · simpa using coin_bounds (lf := ("NLL".toList, nllAt)) (by simp) hr s

/-- The risks: `heads` and `tails` are wrong half of the time. -/
theorem coin_risk_zero_one : risk fairCoin zeroOne2At .ninf coinLab (coinRow "heads".toList) = 1 / 2 ∧
    risk fairCoin zeroOne2At .ninf coinLab (coinRow "tails".toList) = 1 / 2 := by
  constructor
  · unfold risk
    rw [fairCoin_integral, (coin_predicted true).1, (coin_predicted false).1]
    norm_num [zeroOne2At, coinLab, pr]
  · unfold risk
    rw [fairCoin_integral, (coin_predicted true).2.1, (coin_predicted false).2.1]
    norm_num [zeroOne2At, coinLab, pr]

theorem coin_success {n : ℕ} (hn : 1 ≤ n) (other : Interp ℝ) (s : Fin n → Bool) (ld : Str → Str → Draws) :
    ∀ method ∈ ["heads".toList, "tails".toList, "fair".toList], ∀ l ∈ stdClassLoss, ∃ cell, Shows (Classif.justBenchmark studentT other coinTrainX ⟨'i', [1]⟩
      (coinTestX s) (coinTestY s) 2 coinMethods stdClassLoss stdBinaryCurves "tails".toList .ninf false .bernstein coinLimits
      (fun _ _ => List.replicate 1000 (List.replicate n 0)) ld) l.1 method cell := by
  refine C141_success (lab := coinLab) (row := coinRow) (s := s) (methods := coinMethods) (refMethod := "tails".toList)
    (by change ["heads".toList, "tails".toList, "fair".toList].Nodup; decide)
    (by change "tails".toList ∈ ["heads".toList, "tails".toList, "fair".toList]; decide) ?_ rfl (coin_testSet s) (fun h => studentT_isSymmetric (by omega)) ?_ ?_
  · exact ⟨⟨1, [], rfl, [], rfl, rfl⟩, hn, Or.inr rfl, by simp, by simp, rfl, ninf_lt_fin 0⟩
  · exact fun _ _ => ⟨by rw [List.length_replicate], fun row hr => by rw [List.eq_of_mem_replicate hr, List.length_replicate]⟩
  · intro lf hlf
    exact ⟨0, 10, coinLimits_of hlf, by norm_num, fun m hm i => coin_bounds hlf (by
      have := List.mem_map_of_mem (f := fun m => m.1) hm
      exact this) (s i)⟩

/-- Ten tosses: the table shows the error rate of `heads`, and its 95% error bar contains 1/2, the probability to be wrong on a new toss, with
probability at least 95%. -/
example (other : Interp ℝ) (ld : Str → Str → Draws) :
    (∀ ω : Fin 10 → Bool, ∃ cell, Shows (Classif.justBenchmark studentT other coinTrainX ⟨'i', [1]⟩ (coinTestX ω) (coinTestY ω) 2 coinMethods stdClassLoss
      stdBinaryCurves "tails".toList .ninf false .bernstein coinLimits (fun _ _ => List.replicate 1000 (List.replicate 10 0)) ld)
      "zero_one".toList "heads".toList cell) ∧
    Likely (Measure.pi fun _ : Fin 10 => fairCoin) (95 / 100) {ω | ∀ cell, Shows (Classif.justBenchmark studentT other coinTrainX ⟨'i', [1]⟩
      (coinTestX ω) (coinTestY ω) 2 coinMethods stdClassLoss stdBinaryCurves "tails".toList .ninf false .bernstein coinLimits
      (fun _ _ => List.replicate 1000 (List.replicate 10 0)) ld) "zero_one".toList "heads".toList cell → BarHolds cell (1 / 2)} := by
  refine ⟨fun ω => coin_success (by norm_num) other ω ld "heads".toList (by simp) ("zero_one".toList, hardLoss none) (by simp [stdClassLoss]), ?_⟩
  have := C141_error_bar (T := studentT) (other := other) (xTrain := coinTrainX) (yTrain := ⟨'i', [1]⟩)
    (cd := fun _ _ _ => List.replicate 1000 (List.replicate 10 0)) (ld := fun _ => ld)
    (coin_setup (method := "heads".toList) (refMethod := "tails".toList) (by simp) (by simp)).1 (tosses_drawn 10) (xTest := fun ω => coinTestX ω)
    (yTest := fun ω => coinTestY ω) (fun ω => coin_testSet ω)
  rw [coin_risk_zero_one.1] at this
  exact this

/-- The p-value of `heads` against `tails`, which has the same risk, is at most 5% with probability at most 5%; and with `pairwise_CI` the error bar
contains the difference 0 with probability at least 95%. -/
example (other : Interp ℝ) (cd : (Fin 10 → Bool) → BootDraws) (ld : (Fin 10 → Bool) → Str → Str → Draws) :
    (Measure.pi fun _ : Fin 10 => fairCoin).real {ω | ∃ cell, Shows (Classif.justBenchmark studentT other coinTrainX ⟨'i', [1]⟩
      (coinTestX ω) (coinTestY ω) 2 coinMethods stdClassLoss stdBinaryCurves "tails".toList .ninf true .bernstein coinLimits
      (cd ω) (ld ω)) "zero_one".toList "heads".toList cell ∧ Flagged cell (5 / 100)} ≤ 5 / 100 ∧
    Likely (Measure.pi fun _ : Fin 10 => fairCoin) (95 / 100) {ω | ∀ full dump, Classif.justBenchmark studentT other coinTrainX ⟨'i', [1]⟩
      (coinTestX ω) (coinTestY ω) 2 coinMethods stdClassLoss stdBinaryCurves "tails".toList .ninf true .bernstein coinLimits
      (cd ω) (ld ω) = .ok (full, dump) → ∀ cell cellRef, FullCell full "zero_one".toList "heads".toList cell →
      FullCell full "zero_one".toList "tails".toList cellRef → PairHolds cell cellRef (1 / 2 - 1 / 2)} := by
  have hs := (coin_setup (method := "heads".toList) (refMethod := "tails".toList) (by simp) (by simp)).1
  refine ⟨C141_p_value hs (by decide) (tosses_drawn 10) (fun ω => coin_testSet ω) (coin_risk_zero_one.1.trans coin_risk_zero_one.2.symm) (by norm_num), ?_⟩
  have := C141_pairwise (T := studentT) (other := other) (xTrain := coinTrainX) (yTrain := ⟨'i', [1]⟩) (cd := cd) (ld := ld) hs (by decide) (tosses_drawn 10)
    (xTest := fun ω => coinTestX ω) (yTest := fun ω => coinTestY ω) (fun ω => coin_testSet ω)
  rw [coin_risk_zero_one.1, coin_risk_zero_one.2] at this
  exact this

/-! ### More and more tosses -/

theorem coin_nll : (∀ b, nllAt (predicted .ninf (coinRow "heads".toList b)) (coinLab b) = if b then -Real.log (3 / 4) else -Real.log (1 / 4)) ∧
    (∀ b, nllAt (predicted .ninf (coinRow "tails".toList b)) (coinLab b) = if b then -Real.log (1 / 4) else -Real.log (3 / 4)) ∧
    ∀ b, nllAt (predicted .ninf (coinRow "fair".toList b)) (coinLab b) = Real.log 2 := by
  refine ⟨fun b => ?_, fun b => ?_, fun b => ?_⟩
  · rw [(coin_predicted b).1]; cases b <;> rfl
  · rw [(coin_predicted b).2.1]; cases b <;> rfl
  · rw [(coin_predicted b).2.2, ← neg_neg (Real.log 2), ← Real.log_inv, show (2 : ℝ)⁻¹ = 1 / 2 by norm_num]; cases b <;> rfl

theorem coin_logs : Real.log (1 / 4) < Real.log (3 / 4) := Real.log_lt_log (by norm_num) (by norm_num)

theorem coin_risk_nll : risk fairCoin nllAt .ninf coinLab (coinRow "heads".toList) = (-Real.log (3 / 4) + -Real.log (1 / 4)) / 2 ∧
    risk fairCoin nllAt .ninf coinLab (coinRow "tails".toList) = (-Real.log (3 / 4) + -Real.log (1 / 4)) / 2 ∧
    risk fairCoin nllAt .ninf coinLab (coinRow "fair".toList) = Real.log 2 := by
  unfold risk
  simp only [coin_nll.1, coin_nll.2.1, coin_nll.2.2, fairCoin_integral]
  refine ⟨by simp, ?_, by ring⟩
  simp
  ring

/-- `heads` is worse than `fair`. -/
theorem coin_worse : Real.log 2 < (-Real.log (3 / 4) + -Real.log (1 / 4)) / 2 := by
  have e : -Real.log (3 / 4) + -Real.log (1 / 4) = Real.log (16 / 3) := by
    rw [← Real.log_inv, ← Real.log_inv, ← Real.log_mul (by norm_num) (by norm_num)]
    norm_num
  have e2 : 2 * Real.log 2 = Real.log 4 := by
    rw [show (4 : ℝ) = 2 ^ 2 by norm_num, Real.log_pow]
    norm_num
  have := Real.log_lt_log (show (0 : ℝ) < 4 by norm_num) (show (4 : ℝ) < 16 / 3 by norm_num)
  rw [e]
  linarith

theorem coin_integrable (g : Bool → ℝ) : Integrable g fairCoin := .of_finite

/-- With the default method: the error bars contain the risk of `heads` with probability at least 94% when there are enough tosses. -/
example (other : Interp ℝ) (cd : ℕ → (ℕ → Bool) → BootDraws) (ld : ℕ → (ℕ → Bool) → Str → Str → Draws) :
    (∀ᶠ n in atTop, Likely (Measure.infinitePi fun _ : ℕ => fairCoin) (95 / 100 - 1 / 100) {ω | ∀ cell, Shows (Classif.justBenchmark studentT other coinTrainX
      ⟨'i', [1]⟩ (coinTestX fun i : Fin n => ω i) (coinTestY fun i : Fin n => ω i) 2 coinMethods stdClassLoss stdBinaryCurves "tails".toList .ninf false .t
      coinLimits (cd n ω) (ld n ω)) "NLL".toList "heads".toList cell → BarHolds cell (risk fairCoin nllAt .ninf coinLab (coinRow "heads".toList))}) ∧
    (∀ᶠ n in atTop, (Measure.infinitePi fun _ : ℕ => fairCoin).real {ω | ∃ cell, Shows (Classif.justBenchmark studentT other coinTrainX
      ⟨'i', [1]⟩ (coinTestX fun i : Fin n => ω i) (coinTestY fun i : Fin n => ω i) 2 coinMethods stdClassLoss stdBinaryCurves "tails".toList .ninf false .t
      coinLimits (cd n ω) (ld n ω)) "NLL".toList "heads".toList cell ∧ Flagged cell (5 / 100)} ≤ 5 / 100 + 1 / 100) ∧
    (∀ᶠ n in atTop, Likely (Measure.infinitePi fun _ : ℕ => fairCoin) (95 / 100 - 1 / 100) {ω | ∀ full dump, Classif.justBenchmark studentT other coinTrainX
      ⟨'i', [1]⟩ (coinTestX fun i : Fin n => ω i) (coinTestY fun i : Fin n => ω i) 2 coinMethods stdClassLoss stdBinaryCurves "tails".toList .ninf true .t
      coinLimits (cd n ω) (ld n ω) = .ok (full, dump) → ∀ cell cellRef, FullCell full "NLL".toList "heads".toList cell →
      FullCell full "NLL".toList "tails".toList cellRef → PairHolds cell cellRef (risk fairCoin nllAt .ninf coinLab (coinRow "heads".toList) -
        risk fairCoin nllAt .ninf coinLab (coinRow "tails".toList))}) := by
  have hs := (coin_setup (method := "heads".toList) (refMethod := "tails".toList) (by simp) (by simp)).2
  have hlog := coin_logs
  refine ⟨C141_error_bar_t hs stream_drawn (fun n ω => coin_testSet fun i : Fin n => ω i) (coin_integrable _) ?_ (by norm_num),
    C141_p_value_t hs (by decide) stream_drawn (fun n ω => coin_testSet fun i : Fin n => ω i) (fun _ _ => coin_integrable _) ?_
      (coin_risk_nll.1.trans coin_risk_nll.2.1.symm) (by norm_num) (by norm_num) (by norm_num),
    C141_pairwise_t hs (by decide) stream_drawn (fun n ω => coin_testSet fun i : Fin n => ω i) (fun _ _ => coin_integrable _) ?_ (by norm_num)⟩
  · rw [fairCoin_integral, coin_nll.1, coin_nll.1, coin_risk_nll.1]
    simp only [if_true, Bool.false_eq_true, if_false]
    nlinarith [mul_pos (sub_pos.2 hlog) (sub_pos.2 hlog)]
  · rw [fairCoin_integral, coin_nll.1, coin_nll.1, coin_nll.2.1, coin_nll.2.1]
    simp only [if_true, Bool.false_eq_true, if_false]
    nlinarith [mul_pos (sub_pos.2 hlog) (sub_pos.2 hlog)]
  · rw [fairCoin_integral, coin_nll.1, coin_nll.1, coin_nll.2.1, coin_nll.2.1, coin_risk_nll.1, coin_risk_nll.2.1, sub_self]
    simp only [if_true, Bool.false_eq_true, if_false]
    nlinarith [mul_pos (sub_pos.2 hlog) (sub_pos.2 hlog)]

/-- That `heads` is worse than `fair` is almost surely found, with error bars by `'bernstein'`. -/
example (other : Interp ℝ) (cd : ℕ → (ℕ → Bool) → BootDraws) (ld : ℕ → (ℕ → Bool) → Str → Str → Draws) :
    ∀ᵐ ω ∂(Measure.infinitePi fun _ : ℕ => fairCoin), ∀ᶠ n in atTop, ∀ cell, Shows (Classif.justBenchmark studentT other coinTrainX
      ⟨'i', [1]⟩ (coinTestX fun i : Fin n => ω i) (coinTestY fun i : Fin n => ω i) 2 coinMethods stdClassLoss stdBinaryCurves "fair".toList .ninf false
      .bernstein coinLimits (cd n ω) (ld n ω)) "NLL".toList "heads".toList cell → Flagged cell (1 / 1000) := by
  have hs := (coin_setup (method := "heads".toList) (refMethod := "fair".toList) (by simp) (by simp)).2
  have hlog := coin_logs
  filter_upwards [C141_limit (other := other) (xTrain := coinTrainX) (yTrain := ⟨'i', [1]⟩) (pairwise := false) (cd := cd) (ld := ld) hs
    (M := .bernstein) (.inr ⟨rfl, 0, 10, rfl, rfl⟩) (by decide) stream_drawn
    (fun n ω => coin_testSet fun i : Fin n => ω i) (fun _ _ => coin_integrable _) (by
      rw [fairCoin_integral, coin_nll.1, coin_nll.1, coin_risk_nll.1]
      simp only [if_true, Bool.false_eq_true, if_false]
      nlinarith [mul_pos (sub_pos.2 hlog) (sub_pos.2 hlog)]) (by
      rw [fairCoin_integral, coin_nll.1, coin_nll.1, coin_nll.2.2, coin_nll.2.2, coin_risk_nll.1, coin_risk_nll.2.2]
      simp only [if_true, Bool.false_eq_true, if_false]
      nlinarith [mul_pos (sub_pos.2 hlog) (sub_pos.2 hlog)])] with ω hω
  filter_upwards [hω (1 / 1000) (by norm_num)] with n hn cell hc
  refine (hn cell hc).2 ?_
  rw [coin_risk_nll.1, coin_risk_nll.2.2]
  exact coin_worse.ne'

/-! ### Regression -/

def coinTarget (b : Bool) : ℝ := if b then 1 else 0

/-- The predicted mean is 0 or 1 or 3, for every point, with standard deviation 1. -/
def coinMean (m : Str) (_ : Bool) : ℝ := if m = "zero".toList then 0 else if m = "one".toList then 1 else 3

noncomputable def coinRegEst (m : Str) : Regr.Estimator (List Bool) := fun _ _ =>
  .ok ⟨fun x => .ok (realArr (x.data.map (coinMean m)), realArr (x.data.map fun _ => 1)), fun _ => .error .typeError⟩

noncomputable def coinReg : List (Str × Regr.Estimator (List Bool)) :=
  [("zero".toList, coinRegEst "zero".toList), ("one".toList, coinRegEst "one".toList), ("three".toList, coinRegEst "three".toList)]

def coinRegLimits : List (Str × (Flt ℝ × Flt ℝ)) :=
  [("NLL".toList, (.fin 0, .fin 10)), ("MSE".toList, (.fin 0, .fin 10)), ("MAE".toList, (.fin 0, .fin 10))]

theorem coinMean_eq : coinMean "zero".toList = (fun _ => 0) ∧ coinMean "one".toList = (fun _ => 1) ∧ coinMean "three".toList = (fun _ => 3) :=
  ⟨funext fun _ => if_pos rfl, funext fun _ => (if_neg (by decide)).trans (if_pos rfl),
    funext fun _ => (if_neg (by decide)).trans (if_neg (by decide))⟩

theorem coinReg_testSet {n : ℕ} (s : Fin n → Bool) : RegrTestSet coinTrainX (realArr [7]) (coinTestX s) (realArr (List.ofFn fun i => coinTarget (s i)))
    coinReg 0 (fun i => coinTarget (s i)) (fun m i => coinMean m (s i)) (fun _ _ => 1) where
  targets := rfl
  preds m hm := by
    have : m.2 = coinRegEst m.1 := by
      simp only [coinReg, List.mem_cons, List.not_mem_nil, or_false] at hm
      rcases hm with rfl | rfl | rfl <;> rfl
    rw [this]
    refine ⟨_, rfl, Or.inl ?_⟩
    simp only [coinTestX, List.map_ofFn]
    rfl
  pos m _ i := by norm_num

theorem coinReg_bounds {lf : Str × (ℝ → ℝ → ℝ → ℝ)} (hlf : lf ∈ stdPoint) (m : Str) (b : Bool) :
    0 ≤ lf.2 (coinTarget b) (coinMean m b) (max 0 1) ∧ lf.2 (coinTarget b) (coinMean m b) (max 0 1) ≤ 10 := by
  have e : (max 0 1 : ℝ) = 1 := by norm_num
  have hpi := Real.pi_le_four
  have hpi' := Real.two_le_pi
  have h1 := Real.log_le_sub_one_of_pos (show (0 : ℝ) < 2 * Real.pi by positivity)
  have h0 : 0 ≤ Real.log (2 * Real.pi) := Real.log_nonneg (by linarith)
  simp only [stdPoint, List.mem_cons, List.not_mem_nil, or_false] at hlf
  rw [e]
  unfold coinTarget coinMean
  rcases hlf with rfl | rfl | rfl <;> cases b <;> dsimp only <;> split_ifs <;> norm_num <;> constructor <;> linarith

theorem coinRegLimits_of {lf : Str × (ℝ → ℝ → ℝ → ℝ)} (hlf : lf ∈ stdPoint) : LimitsOf coinRegLimits lf.1 (.fin 0) (.fin 10) := by
  simp only [stdPoint, List.mem_cons, List.not_mem_nil, or_false] at hlf
  rcases hlf with rfl | rfl | rfl
  · exact .given [] _ _ _ rfl (by simp)
  · exact .given [("NLL".toList, (.fin 0, .fin 10))] _ _ _ rfl (by simp)
  · exact .given [("NLL".toList, (.fin 0, .fin 10)), ("MSE".toList, (.fin 0, .fin 10))] _ _ _ rfl (by simp)

theorem coinReg_setup {method refMethod : Str} (hm : method ∈ ["zero".toList, "one".toList, "three".toList])
    (hr : refMethod ∈ ["zero".toList, "one".toList, "three".toList]) :
    RegrSetup coinReg stdRegrLoss refMethod 0 coinRegLimits coinTarget coinMean (fun _ _ => 1) ("MSE".toList, Regr.squareLoss) (fun a m _ => (a - m) ^ 2)
      method (.fin 0) (.fin 10) := by
  have hnames : (coinReg.map fun m => m.1) = ["zero".toList, "one".toList, "three".toList] := rfl
  have hsc := (List.forall₂_iff_get.1 scores_regr).2 1 (by decide) (by decide)
  have hmem : ("MSE".toList, fun a m _ => (a - m) ^ 2) ∈ stdPoint := by simp [stdPoint]
  refine ⟨by rw [hnames]; decide, by decide, by simp [stdRegrLoss], hsc.2, by rw [hnames]; exact hm, by rw [hnames]; exact hr,
    coinRegLimits_of hmem, by simp [ValidLimits], fun _ _ => .of_discrete, fun m _ b => ?_⟩
  simpa using coinReg_bounds hmem m b

theorem coinReg_risk : regrRisk fairCoin (fun a m _ => (a - m) ^ 2) 0 coinTarget (coinMean "zero".toList) (fun _ => 1) = 1 / 2 ∧
    regrRisk fairCoin (fun a m _ => (a - m) ^ 2) 0 coinTarget (coinMean "one".toList) (fun _ => 1) = 1 / 2 ∧
    regrRisk fairCoin (fun a m _ => (a - m) ^ 2) 0 coinTarget (coinMean "three".toList) (fun _ => 1) = 13 / 2 := by
  unfold regrRisk
  refine ⟨?_, ?_, ?_⟩ <;> rw [fairCoin_integral] <;> norm_num [coinTarget, coinMean_eq]

/-- The benchmark of ten tosses succeeds. -/
theorem coinReg_success (pairwise : Bool) (s : Fin 10 → Bool) (ld : Str → Str → Draws) :
    ∀ method ∈ ["zero".toList, "one".toList, "three".toList], ∀ l ∈ stdRegrLoss, ∃ cell, ShowsR (Regr.justBenchmark studentT ['f'] ['f'] coinTrainX
      (realArr [7]) (coinTestX s) (realArr (List.ofFn fun i => coinTarget (s i))) coinReg stdRegrLoss "one".toList (.fin 0) pairwise .bernstein
      coinRegLimits ld) l.1 method cell := by
  refine C141_regr_success (methods := coinReg) (refMethod := "one".toList) (s := s) (target := coinTarget) (mean := coinMean) (std := fun _ _ => 1)
    (by change ["zero".toList, "one".toList, "three".toList].Nodup; decide)
    (by change "one".toList ∈ ["zero".toList, "one".toList, "three".toList]; decide)
    ⟨⟨1, 1, rfl, rfl, rfl⟩, by norm_num, rfl, by simp, by simp⟩ (coinReg_testSet s) (fun h => studentT_isSymmetric (by omega)) ?_
  exact fun lf hlf => ⟨0, 10, coinRegLimits_of hlf, by norm_num, fun m _ i => coinReg_bounds hlf m.1 (s i)⟩

/-- The mean square error of `zero` on new tosses is 1/2, as that of `one`. -/
example (ld : (Fin 10 → Bool) → Str → Str → Draws) :
    Likely (Measure.pi fun _ : Fin 10 => fairCoin) (95 / 100) {ω | ∀ cell, ShowsR (Regr.justBenchmark studentT ['f'] ['f'] coinTrainX
      (realArr [7]) (coinTestX ω) (realArr (List.ofFn fun i => coinTarget (ω i))) coinReg stdRegrLoss "one".toList (.fin 0) false .bernstein
      coinRegLimits (ld ω)) "MSE".toList "zero".toList cell → BarHolds cell (1 / 2)} ∧
    Likely (Measure.pi fun _ : Fin 10 => fairCoin) (95 / 100) {ω | ∀ full, Regr.justBenchmark studentT ['f'] ['f'] coinTrainX
      (realArr [7]) (coinTestX ω) (realArr (List.ofFn fun i => coinTarget (ω i))) coinReg stdRegrLoss "one".toList (.fin 0) true .bernstein
      coinRegLimits (ld ω) = .ok full → ∀ cell cellRef, FullCell full "MSE".toList "zero".toList cell →
      FullCell full "MSE".toList "one".toList cellRef → PairHolds cell cellRef (1 / 2 - 1 / 2)} ∧
    (Measure.pi fun _ : Fin 10 => fairCoin).real {ω | ∃ cell, ShowsR (Regr.justBenchmark studentT ['f'] ['f'] coinTrainX
      (realArr [7]) (coinTestX ω) (realArr (List.ofFn fun i => coinTarget (ω i))) coinReg stdRegrLoss "one".toList (.fin 0) true .bernstein
      coinRegLimits (ld ω)) "MSE".toList "zero".toList cell ∧ Flagged cell (1 / 100)} ≤ 1 / 100 := by
  have hs := coinReg_setup (method := "zero".toList) (refMethod := "one".toList) (by simp) (by simp)
  have h1 := C141_regr_error_bar (T := studentT) (dt := ['f']) (dt' := ['f']) (xTrain := coinTrainX) (yTrain := realArr [7]) (ld := ld) hs (tosses_drawn 10)
    (fun ω => coinReg_testSet ω)
  have h2 := C141_regr_pairwise (T := studentT) (dt := ['f']) (dt' := ['f']) (xTrain := coinTrainX) (yTrain := realArr [7]) (ld := ld) hs (by decide)
    (tosses_drawn 10) (fun ω => coinReg_testSet ω)
  rw [coinReg_risk.1] at h1
  rw [coinReg_risk.1, coinReg_risk.2.1] at h2
  exact ⟨h1, h2, C141_regr_p_value hs (by decide) (tosses_drawn 10) (fun ω => coinReg_testSet ω) (coinReg_risk.1.trans coinReg_risk.2.1.symm) (by norm_num)⟩

/-- With the default method and more and more tosses; and that `three` is worse than `one` is almost surely found. -/
example (ld : ℕ → (ℕ → Bool) → Str → Str → Draws) :
    (∀ᶠ n in atTop, Likely (Measure.infinitePi fun _ : ℕ => fairCoin) (95 / 100 - 1 / 100) {ω | ∀ cell, ShowsR (Regr.justBenchmark studentT ['f'] ['f']
      coinTrainX (realArr [7]) (coinTestX fun i : Fin n => ω i) (realArr (List.ofFn fun i : Fin n => coinTarget (ω i))) coinReg stdRegrLoss "one".toList
      (.fin 0) false .t coinRegLimits (ld n ω)) "MSE".toList "zero".toList cell →
        BarHolds cell (regrRisk fairCoin (fun a m _ => (a - m) ^ 2) 0 coinTarget (coinMean "zero".toList) (fun _ => 1))}) ∧
    (∀ᶠ n in atTop, Likely (Measure.infinitePi fun _ : ℕ => fairCoin) (95 / 100 - 1 / 100) {ω | ∀ full, Regr.justBenchmark studentT ['f'] ['f']
      coinTrainX (realArr [7]) (coinTestX fun i : Fin n => ω i) (realArr (List.ofFn fun i : Fin n => coinTarget (ω i))) coinReg stdRegrLoss "one".toList
      (.fin 0) true .t coinRegLimits (ld n ω) = .ok full → ∀ cell cellRef, FullCell full "MSE".toList "zero".toList cell →
        FullCell full "MSE".toList "one".toList cellRef → PairHolds cell cellRef
          (regrRisk fairCoin (fun a m _ => (a - m) ^ 2) 0 coinTarget (coinMean "zero".toList) (fun _ => 1) -
            regrRisk fairCoin (fun a m _ => (a - m) ^ 2) 0 coinTarget (coinMean "one".toList) (fun _ => 1))}) ∧
    (∀ᶠ n in atTop, (Measure.infinitePi fun _ : ℕ => fairCoin).real {ω | ∃ cell, ShowsR (Regr.justBenchmark studentT ['f'] ['f']
      coinTrainX (realArr [7]) (coinTestX fun i : Fin n => ω i) (realArr (List.ofFn fun i : Fin n => coinTarget (ω i))) coinReg stdRegrLoss "one".toList
      (.fin 0) false .t coinRegLimits (ld n ω)) "MSE".toList "zero".toList cell ∧ Flagged cell (5 / 100)} ≤ 5 / 100 + 1 / 100) ∧
    ∀ᵐ ω ∂(Measure.infinitePi fun _ : ℕ => fairCoin), ∀ᶠ n in atTop, ∀ cell, ShowsR (Regr.justBenchmark studentT ['f'] ['f']
      coinTrainX (realArr [7]) (coinTestX fun i : Fin n => ω i) (realArr (List.ofFn fun i : Fin n => coinTarget (ω i))) coinReg stdRegrLoss "one".toList
      (.fin 0) false .t coinRegLimits (ld n ω)) "MSE".toList "three".toList cell → Flagged cell (1 / 1000) := by
  have hs := coinReg_setup (method := "zero".toList) (refMethod := "one".toList) (by simp) (by simp)
  have hs' := coinReg_setup (method := "three".toList) (refMethod := "one".toList) (by simp) (by simp)
  refine ⟨C141_regr_error_bar_t hs stream_drawn (fun n ω => coinReg_testSet fun i : Fin n => ω i) (coin_integrable _) ?_ (by norm_num),
    C141_regr_pairwise_t hs (by decide) stream_drawn (fun n ω => coinReg_testSet fun i : Fin n => ω i) (fun _ _ => coin_integrable _) ?_ (by norm_num),
    C141_regr_p_value_t hs (by decide) stream_drawn (fun n ω => coinReg_testSet fun i : Fin n => ω i) (fun _ _ => coin_integrable _) ?_
      (coinReg_risk.1.trans coinReg_risk.2.1.symm) (by norm_num) (by norm_num) (by norm_num), ?_⟩
  · rw [fairCoin_integral, coinReg_risk.1]
    norm_num [coinTarget, coinMean_eq]
  · rw [fairCoin_integral, coinReg_risk.1, coinReg_risk.2.1]
    norm_num [coinTarget, coinMean_eq]
  · rw [fairCoin_integral]
    norm_num [coinTarget, coinMean_eq]
  · filter_upwards [C141_regr_limit (dt := ['f']) (dt' := ['f']) (xTrain := coinTrainX) (yTrain := realArr [7]) (pairwise := false) (ld := ld) hs'
      (M := .t) (.inl rfl) (by decide) stream_drawn (fun n ω => coinReg_testSet fun i : Fin n => ω i) (fun _ _ => coin_integrable _) (by
        rw [fairCoin_integral, coinReg_risk.2.2]
        norm_num [coinTarget, coinMean_eq]) (by
        rw [fairCoin_integral, coinReg_risk.2.2, coinReg_risk.2.1]
        norm_num [coinTarget, coinMean_eq])] with ω hω
    filter_upwards [hω (1 / 1000) (by norm_num)] with n hn cell hc
    refine (hn cell hc).2 ?_
    rw [coinReg_risk.2.2, coinReg_risk.2.1]
    norm_num

end Mlp.Props
