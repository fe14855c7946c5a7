import Verif.Props.RankingBench
import Verif.Props.BenchPromiseEx

/-! # C142: concrete cases -/

namespace Mlp.Props
open Mlp Mlp.Util Mlp.Spec Mlp.Classif Mlp.Lemmas Mlp.Frame Mlp.Boot Mlp.Perf Mlp.Paper MeasureTheory ProbabilityTheory

/-- Heads if one of two fair coins shows heads: three times out of four. -/
noncomputable def loadedCoin : Measure Bool := (fairCoin.prod fairCoin).map fun p => p.1 || p.2

instance : IsProbabilityMeasure loadedCoin := Measure.isProbabilityMeasure_map Measurable.of_discrete.aemeasurable

theorem loadedCoin_integral (g : Bool → ℝ) : ∫ b, g b ∂loadedCoin = (3 * g true + g false) / 4 := by
  unfold loadedCoin
  rw [integral_map Measurable.of_discrete.aemeasurable Measurable.of_discrete.aestronglyMeasurable, integral_prod _ .of_finite, fairCoin_integral,
    fairCoin_integral, fairCoin_integral]
  simp only [Bool.true_or, Bool.or_false, Bool.or_true]
  ring

/-- A positive case shows heads more often, and gets a higher score for it. -/
theorem loaded_rank {g : Bool → ℝ} (h : g false < g true) : rankProb loadedCoin fairCoin g = 5 / 8 := by
  rw [← integral_ordered .of_discrete, integral_prod _ .of_finite, loadedCoin_integral, fairCoin_integral, fairCoin_integral]
  unfold ordered
  simp only [lt_self_iff_false, if_false, if_true, h, h.not_gt, h.ne]
  norm_num

noncomputable def caseLaw {n : ℕ} (lab : Fin n → Bool) (i : Fin n) : Measure Bool := if lab i then loadedCoin else fairCoin

instance {n : ℕ} (lab : Fin n → Bool) (i : Fin n) : IsProbabilityMeasure (caseLaw lab i) := by
  unfold caseLaw
  split <;> infer_instance

theorem cases_drawn {n : ℕ} (lab : Fin n → Bool) : DrawnCases (Measure.pi (caseLaw lab)) loadedCoin fairCoin lab (fun i (ω : Fin n → Bool) => ω i) where
  meas i := measurable_pi_apply i
  law i := (measurePreserving_eval (caseLaw lab) i).map_eq
  indep := iIndepFun_pi (X := fun (_ : Fin n) (b : Bool) => b) fun _ => aemeasurable_id

/-- Two positive cases and one negative case. -/
def threeLab (i : Fin 3) : Bool := i ≠ 0

theorem threeLab_num : numLab threeLab true = 2 ∧ numLab threeLab false = 1 := by decide

/-- The mean of the area under the curve is 5/8. -/
example : ∃ auc : (Fin 3 → Bool) → ℝ, (∀ ω A, AreaOf rocCurve (List.ofFn threeLab) (finVec (List.ofFn fun i => if ω i then (7 : ℝ) else 2)) none A ↔
      A = [.fin (auc ω)]) ∧ ∫ ω, auc ω ∂(Measure.pi (caseLaw threeLab)) = 5 / 8 := by
  obtain ⟨auc, h1, -, -, h2, -⟩ := C142_auc (cases_drawn threeLab) (g := fun b => if b then 7 else 2) .of_discrete
    (by rw [threeLab_num.1]; norm_num) (by rw [threeLab_num.2]; norm_num)
  exact ⟨auc, h1, h2.trans (loaded_rank (by norm_num))⟩

/-- Half a million cases of each label: the area is within 1/100 of 5/8 with probability at least 99%. -/
example {n : ℕ} {lab : Fin n → Bool} (h1 : numLab lab true = 500000) (h0 : numLab lab false = 500000) :
    ∃ auc : (Fin n → Bool) → ℝ, (∀ ω A, AreaOf rocCurve (List.ofFn lab) (finVec (List.ofFn fun i => if ω i then (7 : ℝ) else 2)) none A ↔
      A = [.fin (auc ω)]) ∧ (Measure.pi (caseLaw lab)).real {ω | 1 / 100 ≤ |auc ω - 5 / 8|} ≤ 1 / 100 := by
  obtain ⟨auc, a, -, -, -, -, b⟩ := C142_auc (cases_drawn lab) (g := fun b => if b then 7 else 2) .of_discrete (by rw [h1]; norm_num) (by rw [h0]; norm_num)
  have := b (1 / 100) (by norm_num)
  rw [loaded_rank (by norm_num), h1, h0] at this
  exact ⟨auc, a, this.trans (by norm_num)⟩

/-! ### A benchmark -/

/-- A method that looks at the case: `look` predicts label 1 with probability 3/4 for heads and 1/4 for tails; `blind` always with 1/2. -/
noncomputable def lookRow (m : Str) (b : Bool) : List (Flt ℝ) :=
  if m = "look".toList then (if b then [.fin (Real.log (1 / 4)), .fin (Real.log (3 / 4))] else [.fin (Real.log (3 / 4)), .fin (Real.log (1 / 4))])
  else [.fin (Real.log (1 / 2)), .fin (Real.log (1 / 2))]

noncomputable def lookEst (m : Str) : Classif.Estimator (List Bool) := fun _ _ =>
  .ok ⟨fun x => .ok ⟨2, x.data.map (lookRow m)⟩, fun _ => .error .typeError⟩

noncomputable def lookMethods : List (Str × Classif.Estimator (List Bool)) :=
  [("look".toList, lookEst "look".toList), ("blind".toList, lookEst "blind".toList)]

theorem lookRow_finite (m : Str) (b : Bool) : (lookRow m b).length = 2 ∧ ∀ v ∈ lookRow m b, (max .ninf v).isFinite = true := by
  unfold lookRow
  split_ifs <;> simp [Flt.isFinite]

theorem look_predicted : predicted .ninf (lookRow "look".toList true) = [1 / 4, 3 / 4] ∧ predicted .ninf (lookRow "look".toList false) = [3 / 4, 1 / 4] ∧
    ∀ b, predicted .ninf (lookRow "blind".toList b) = [1 / 2, 1 / 2] := by
  have e1 := Real.exp_log (show (0 : ℝ) < 1 / 4 by norm_num)
  have e2 := Real.exp_log (show (0 : ℝ) < 3 / 4 by norm_num)
  have e3 := Real.exp_log (show (0 : ℝ) < 1 / 2 by norm_num)
  refine ⟨?_, ?_, fun b => ?_⟩ <;> unfold predicted lookRow <;>
    simp [prob, -Real.log_inv, -one_div, e1, e2, e3] <;> norm_num

def labY {n : ℕ} (lab : Fin n → Bool) : LabelVec := ⟨'i', List.ofFn fun i => ((if lab i then 1 else 0 : ℕ) : ℤ)⟩

theorem look_testSet {n : ℕ} (lab : Fin n → Bool) (s : Fin n → Bool) : TestSet coinTrainX ⟨'i', [1]⟩ (coinTestX s) (labY lab) 2 lookMethods .ninf
    (fun i => if lab i then 1 else 0) (fun m i => lookRow m (s i)) where
  labels := rfl
  range i := by split <;> norm_num
  preds m hm := by
    have : m.2 = lookEst m.1 := by
      simp only [lookMethods, List.mem_cons, List.not_mem_nil, or_false] at hm
      rcases hm with rfl | rfl <;> rfl
    rw [this]
    refine ⟨_, rfl, Or.inl ?_⟩
    simp only [coinTestX, List.map_ofFn]
    rfl
  width m _ i := (lookRow_finite m.1 (s i)).1
  finite m _ i := (lookRow_finite m.1 (s i)).2

/-- The table of the benchmark shows an AUC of `look` for each outcome of the three cases; its expected value is 5/8, that of `blind` 1/2. -/
example (other : Interp ℝ) (ld : Str → Str → Draws) :
    (∀ ω : Fin 3 → Bool, ∃ cell, Shows (Classif.justBenchmark studentT other coinTrainX ⟨'i', [1]⟩ (coinTestX ω) (labY threeLab) 2 lookMethods stdClassLoss
      stdBinaryCurves "blind".toList .ninf false .t [] (fun _ _ => List.replicate 1000 (List.replicate 3 0)) ld) "AUC".toList "look".toList cell) ∧
    ∃ auc : (Fin 3 → Bool) → ℝ, (∀ ω cell, Shows (Classif.justBenchmark studentT other coinTrainX ⟨'i', [1]⟩ (coinTestX ω) (labY threeLab) 2 lookMethods
      stdClassLoss stdBinaryCurves "blind".toList .ninf false .t [] (fun _ _ => List.replicate 1000 (List.replicate 3 0)) ld) "AUC".toList "look".toList cell →
        cell.1 = .fin (auc ω)) ∧ ∫ ω, auc ω ∂(Measure.pi (caseLaw threeLab)) = 5 / 8 := by
  have hn : (lookMethods.map fun m => m.1).Nodup := by change ["look".toList, "blind".toList].Nodup; decide
  have hm : "look".toList ∈ lookMethods.map fun m => m.1 := by change "look".toList ∈ ["look".toList, "blind".toList]; decide
  constructor
  · intro ω
    have ht := look_testSet threeLab ω
    obtain ⟨⟨full, dump⟩, h0⟩ := C91_class_standard (T := studentT) other (methods := lookMethods) (refMethod := "blind".toList) (floor := .ninf)
      (xTrain := coinTrainX) (yTrain := ⟨'i', [1]⟩) (xTest := coinTestX ω) (yTest := labY threeLab) (nTest := 3) (methodEB := .t)
      (cd := fun _ _ => List.replicate 1000 (List.replicate 3 0)) (ld := ld) hn
      (by change "blind".toList ∈ ["look".toList, "blind".toList]; decide)
      ⟨⟨1, [], rfl, [], rfl, rfl⟩, by norm_num, Or.inr rfl, by simp, by simp, rfl, ninf_lt_fin 0⟩ rfl
      (by rw [ht.labels]; simp) (by
        intro v hv
        rw [ht.labels] at hv
        obtain ⟨i, rfl⟩ := List.mem_ofFn.1 hv
        split <;> simp) (fun m hm => ⟨_, ht.preds m hm, by simp, rfl, fun r hr => by
        obtain ⟨i, rfl⟩ := List.mem_ofFn.1 hr
        exact ⟨ht.width m hm i, ht.finite m hm i⟩⟩)
      (fun _ _ => ⟨by rw [List.length_replicate], fun row hr => by rw [List.eq_of_mem_replicate hr, List.length_replicate]⟩) (by simp)
      (fun _ => studentT_isSymmetric (by norm_num)) (by simp)
    obtain ⟨cell, hc⟩ := C142_shown hn (by decide) (by
      intro m hm p hp r hr
      have f3 := (trainPredict_ok_iff ..).2 (ht.preds m hm)
      rw [(trainPredict_ok_iff ..).2 hp, Except.ok.injEq] at f3
      rw [f3] at hr ⊢
      obtain ⟨k, rfl⟩ := List.mem_ofFn.1 hr
      rw [ht.width _ hm]) h0 hm (name := "AUC".toList) (by simp [stdBinaryCurves])
    exact ⟨cell, full, dump, h0, hc⟩
  · obtain ⟨auc, h1, -, -, h2, -⟩ := C142_benchmark (T := studentT) (other := other) (xTrain := coinTrainX) (yTrain := ⟨'i', [1]⟩) (methods := lookMethods)
      (losses := stdClassLoss) (curves := stdBinaryCurves) (refMethod := "blind".toList) (floor := .ninf) (pairwise := false) (methodEB := .t) (limits := [])
      (cd := fun _ _ _ => List.replicate 1000 (List.replicate 3 0)) (ld := fun _ => ld) hn (by decide) (by decide) (name := "AUC".toList)
      (by simp [stdBinaryCurves]) (by decide) (row := lookRow) (cases_drawn threeLab) (fun ω => look_testSet threeLab ω)
      (by rw [threeLab_num.1]; norm_num) (by rw [threeLab_num.2]; norm_num) hm .of_discrete
    refine ⟨auc, h1, h2.trans (loaded_rank ?_)⟩
    rw [look_predicted.1, look_predicted.2.1]
    norm_num

/-- `blind` scores all cases alike: one half. -/
example : rankProb loadedCoin fairCoin (fun b => (predicted .ninf (lookRow "blind".toList b)).getD 1 0) = 1 / 2 := by
  refine (C142_meaning .of_discrete).2.1 ?_
  simp only [look_predicted.2.2, Measure.map_const, measure_univ]

/-- Heads against tails: 1. -/
example : rankProb (Measure.dirac true) (Measure.dirac false) (fun b => (predicted .ninf (lookRow "look".toList b)).getD 1 0) = 1 := by
  refine (C142_meaning .of_discrete).2.2 ⟨1 / 2, ?_, ?_⟩
  · rw [ae_dirac_eq]
    simp only [Filter.eventually_pure, look_predicted.1]
    norm_num
  · rw [ae_dirac_eq]
    simp only [Filter.eventually_pure, look_predicted.2.1]
    norm_num

end Mlp.Props
