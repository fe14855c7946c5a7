import Verif.Props.BenchPromiseEx
import Verif.Props.WholeTable

/-! # C143: concrete cases -/

namespace Mlp.Props
open Mlp Mlp.Util Mlp.Spec Mlp.Classif Mlp.Lemmas Mlp.Frame Mlp.Boot Mlp.Perf Mlp.Paper MeasureTheory ProbabilityTheory Filter Topology
open Mlp.Regr (Arr stdRegrLoss)

theorem coin_mem {s : Finset Str} (hs : s ⊆ {"heads".toList, "tails".toList, "fair".toList}) {m : Str} (hm : m ∈ s) :
    m ∈ ["heads".toList, "tails".toList, "fair".toList] := by
  have := hs hm
  simpa using this

/-- Ten tosses and three methods: with probability at least 85% all conclusions about the log loss are right. -/
example (other : Interp ℝ) (cd : (Fin 10 → Bool) → BootDraws) (ld : (Fin 10 → Bool) → Str → Str → Draws) :
    Likely (Measure.pi fun _ : Fin 10 => fairCoin) (85 / 100) {ω | Conclusions (Shows (Classif.justBenchmark studentT other coinTrainX ⟨'i', [1]⟩
      (coinTestX ω) (coinTestY ω) 2 coinMethods stdClassLoss stdBinaryCurves "tails".toList .ninf false .bernstein coinLimits
      (cd ω) (ld ω)) "NLL".toList) {"heads".toList, "tails".toList, "fair".toList} fun m => risk fairCoin nllAt .ninf coinLab (coinRow m)} := by
  refine (C143_conclusions (s := {"heads".toList, "tails".toList, "fair".toList}) (fun m hm => (coin_setup (coin_mem subset_rfl hm) (by simp)).2)
    (tosses_drawn 10) (fun ω => coin_testSet ω)).weaken ?_
  rw [show (({"heads".toList, "tails".toList, "fair".toList} : Finset Str)).card = 3 by decide]
  norm_num

/-- The reader may conclude that `fair` is better than `heads` from cells like these, and it is. -/
example : Below (.fin (69 / 100), .fin (1 / 100), .nan) (.fin (85 / 100), .fin (5 / 100), .nan) ∧
    risk fairCoin nllAt .ninf coinLab (coinRow "fair".toList) < risk fairCoin nllAt .ninf coinLab (coinRow "heads".toList) := by
  refine ⟨⟨_, _, _, _, rfl, rfl, rfl, rfl, by norm_num⟩, ?_⟩
  rw [coin_risk_nll.1, coin_risk_nll.2.2]
  exact coin_worse

/-- The error bars of `heads` for two losses at the same time. -/
example (other : Interp ℝ) (cd : (Fin 10 → Bool) → BootDraws) (ld : (Fin 10 → Bool) → Str → Str → Draws) :
    Likely (Measure.pi fun _ : Fin 10 => fairCoin) (90 / 100) {ω | ∀ i : Bool, ∀ cell, Shows (Classif.justBenchmark studentT other coinTrainX ⟨'i', [1]⟩
      (coinTestX ω) (coinTestY ω) 2 coinMethods stdClassLoss stdBinaryCurves "tails".toList .ninf false .bernstein coinLimits
      (cd ω) (ld ω)) (if i then "NLL".toList else "zero_one".toList) "heads".toList cell →
      BarHolds cell (risk fairCoin (if i then nllAt else zeroOne2At) .ninf coinLab (coinRow "heads".toList))} := by
  have hs := coin_setup (method := "heads".toList) (refMethod := "tails".toList) (by simp) (by simp)
  refine ((C143_table (T := studentT) (other := other) (cd := cd) (ld := ld) (s := Finset.univ)
    (loss := fun i : Bool => if i then ("NLL".toList, Classif.logLoss) else ("zero_one".toList, hardLoss none))
    (f := fun i => if i then nllAt else zeroOne2At) (method := fun _ => "heads".toList) (l := fun _ => 0) (u := fun _ => 10)
    (fun i _ => by cases i; exacts [hs.1, hs.2]) (tosses_drawn 10) (fun ω => coin_testSet ω)).weaken ?_).mono ?_
  · norm_num
  · intro ω h i cell hc
    refine h i (Finset.mem_univ _) cell ?_
    cases i <;> exact hc

/-- Two methods against the reference `tails`, with `pairwise_CI`; and two p-values for methods with the same risk. -/
example (other : Interp ℝ) (cd : (Fin 10 → Bool) → BootDraws) (ld : (Fin 10 → Bool) → Str → Str → Draws) :
    Likely (Measure.pi fun _ : Fin 10 => fairCoin) (90 / 100) {ω | ∀ full dump, Classif.justBenchmark studentT other coinTrainX ⟨'i', [1]⟩
      (coinTestX ω) (coinTestY ω) 2 coinMethods stdClassLoss stdBinaryCurves "tails".toList .ninf true .bernstein coinLimits
      (cd ω) (ld ω) = .ok (full, dump) → ∀ m ∈ ({"heads".toList, "fair".toList} : Finset Str), ∀ cell cellRef, FullCell full "NLL".toList m cell →
      FullCell full "NLL".toList "tails".toList cellRef →
      (Ahead cell cellRef → risk fairCoin nllAt .ninf coinLab (coinRow m) < risk fairCoin nllAt .ninf coinLab (coinRow "tails".toList)) ∧
      (Behind cell cellRef → risk fairCoin nllAt .ninf coinLab (coinRow "tails".toList) < risk fairCoin nllAt .ninf coinLab (coinRow m))} ∧
    (Measure.pi fun _ : Fin 10 => fairCoin).real {ω | ∃ i ∈ (Finset.univ : Finset Bool), ∃ cell, Shows (Classif.justBenchmark studentT other coinTrainX
      ⟨'i', [1]⟩ (coinTestX ω) (coinTestY ω) 2 coinMethods stdClassLoss stdBinaryCurves "tails".toList .ninf false .bernstein coinLimits
      (cd ω) (ld ω)) ((fun i : Bool => if i then ("NLL".toList, Classif.logLoss) else ("zero_one".toList, hardLoss none)) i).1 "heads".toList cell ∧
      Flagged cell (5 / 100 / (Finset.univ : Finset Bool).card)} ≤ 5 / 100 := by
  have hs := coin_setup (method := "heads".toList) (refMethod := "tails".toList) (by simp) (by simp)
  refine ⟨(C143_pairwise (s := {"heads".toList, "fair".toList}) (fun m hm => (coin_setup (coin_mem (by decide) hm) (by simp)).2) (by decide)
    (tosses_drawn 10) (fun ω => coin_testSet ω)).weaken ?_, C143_p_values (f := fun i : Bool => if i then nllAt else zeroOne2At) (l := fun _ => 0)
    (u := fun _ => 10) (fun i _ => by cases i; exacts [hs.1, hs.2]) (fun _ _ => by decide) (tosses_drawn 10) (fun ω => coin_testSet ω) (fun i _ => ?_)
    (by norm_num)⟩
  · rw [show (({"heads".toList, "fair".toList} : Finset Str)).card = 2 by decide]
    norm_num
  · cases i
    · exact coin_risk_zero_one.1.trans coin_risk_zero_one.2.symm
    · exact coin_risk_nll.1.trans coin_risk_nll.2.1.symm

/-- With the default method and many tosses. -/
example (other : Interp ℝ) (cd : ℕ → (ℕ → Bool) → BootDraws) (ld : ℕ → (ℕ → Bool) → Str → Str → Draws) :
    (∀ᶠ n in atTop, Likely (Measure.infinitePi fun _ : ℕ => fairCoin) (89 / 100) {ω | Conclusions (Shows (Classif.justBenchmark studentT other coinTrainX
      ⟨'i', [1]⟩ (coinTestX fun i : Fin n => ω i) (coinTestY fun i : Fin n => ω i) 2 coinMethods stdClassLoss stdBinaryCurves "tails".toList .ninf false .t
      coinLimits (cd n ω) (ld n ω)) "NLL".toList) {"heads".toList, "tails".toList} fun m => risk fairCoin nllAt .ninf coinLab (coinRow m)}) ∧
    (∀ᶠ n in atTop, Likely (Measure.infinitePi fun _ : ℕ => fairCoin) (89 / 100) {ω | ∀ full dump, Classif.justBenchmark studentT other coinTrainX
      ⟨'i', [1]⟩ (coinTestX fun i : Fin n => ω i) (coinTestY fun i : Fin n => ω i) 2 coinMethods stdClassLoss stdBinaryCurves "tails".toList .ninf true .t
      coinLimits (cd n ω) (ld n ω) = .ok (full, dump) → ∀ m ∈ ({"heads".toList, "fair".toList} : Finset Str), ∀ cell cellRef,
      FullCell full "NLL".toList m cell → FullCell full "NLL".toList "tails".toList cellRef →
      (Ahead cell cellRef → risk fairCoin nllAt .ninf coinLab (coinRow m) < risk fairCoin nllAt .ninf coinLab (coinRow "tails".toList)) ∧
      (Behind cell cellRef → risk fairCoin nllAt .ninf coinLab (coinRow "tails".toList) < risk fairCoin nllAt .ninf coinLab (coinRow m))}) ∧
    ∀ᶠ n in atTop, (Measure.infinitePi fun _ : ℕ => fairCoin).real {ω | ∃ i ∈ ({()} : Finset Unit), ∃ cell, Shows (Classif.justBenchmark studentT other coinTrainX
      ⟨'i', [1]⟩ (coinTestX fun i : Fin n => ω i) (coinTestY fun i : Fin n => ω i) 2 coinMethods stdClassLoss stdBinaryCurves "tails".toList .ninf false .t
      coinLimits (cd n ω) (ld n ω)) ((fun _ : Unit => ("NLL".toList, Classif.logLoss)) i).1 "heads".toList cell ∧
      Flagged cell (5 / 100 / ({()} : Finset Unit).card)} ≤ 5 / 100 + 1 / 100 := by
  have hlog := coin_logs
  refine ⟨(C143_conclusions_t (s := {"heads".toList, "tails".toList}) (fun m hm => (coin_setup (coin_mem (by decide) hm) (by simp)).2) stream_drawn
      (fun n ω => coin_testSet fun i : Fin n => ω i) (fun _ _ => coin_integrable _) ?_ (δ := 1 / 100) (by norm_num)).mono fun n h => h.weaken ?_,
    (C143_pairwise_t (s := {"heads".toList, "fair".toList}) (fun m hm => (coin_setup (coin_mem (by decide) hm) (by simp)).2) (by decide) stream_drawn
      (fun n ω => coin_testSet fun i : Fin n => ω i) (fun _ _ => coin_integrable _) ?_ (δ := 1 / 100) (by norm_num)).mono fun n h => h.weaken ?_,
    C143_p_values_t (f := fun _ => nllAt) (lower := fun _ => .fin 0) (upper := fun _ => .fin 10)
      (fun _ _ => (coin_setup (method := "heads".toList) (refMethod := "tails".toList) (by simp) (by simp)).2) (fun _ _ => by decide) stream_drawn
      (fun n ω => coin_testSet fun i : Fin n => ω i) (fun _ _ _ _ => coin_integrable _) (fun _ _ => ?_)
      (fun _ _ => coin_risk_nll.1.trans coin_risk_nll.2.1.symm) (by norm_num) (by norm_num) (by norm_num)⟩
  · intro m hm
    simp only [Finset.mem_insert, Finset.mem_singleton] at hm
    rcases hm with rfl | rfl
    · rw [fairCoin_integral, coin_nll.1, coin_nll.1, coin_risk_nll.1]
      simp only [if_true, Bool.false_eq_true, if_false]
      nlinarith [mul_pos (sub_pos.2 hlog) (sub_pos.2 hlog)]
    · rw [fairCoin_integral, coin_nll.2.1, coin_nll.2.1, coin_risk_nll.2.1]
      simp only [if_true, Bool.false_eq_true, if_false]
      nlinarith [mul_pos (sub_pos.2 hlog) (sub_pos.2 hlog)]
  · rw [show (({"heads".toList, "tails".toList} : Finset Str)).card = 2 by decide]
    norm_num
  · intro m hm
    simp only [Finset.mem_insert, Finset.mem_singleton] at hm
    rcases hm with rfl | rfl
    · rw [fairCoin_integral, coin_nll.1, coin_nll.1, coin_nll.2.1, coin_nll.2.1, coin_risk_nll.1, coin_risk_nll.2.1, sub_self]
      simp only [if_true, Bool.false_eq_true, if_false]
      nlinarith [mul_pos (sub_pos.2 hlog) (sub_pos.2 hlog)]
    · rw [fairCoin_integral, coin_nll.2.2, coin_nll.2.2, coin_nll.2.1, coin_nll.2.1, coin_risk_nll.2.2, coin_risk_nll.2.1]
      simp only [if_true, Bool.false_eq_true, if_false]
      nlinarith [mul_pos (sub_pos.2 hlog) (sub_pos.2 hlog)]
  · rw [show (({"heads".toList, "fair".toList} : Finset Str)).card = 2 by decide]
    norm_num
  · rw [fairCoin_integral, coin_nll.1, coin_nll.1, coin_nll.2.1, coin_nll.2.1]
    simp only [if_true, Bool.false_eq_true, if_false]
    nlinarith [mul_pos (sub_pos.2 hlog) (sub_pos.2 hlog)]

/-! ### Regression -/

theorem coinReg_mem {s : Finset Str} (hs : s ⊆ {"zero".toList, "one".toList, "three".toList}) {m : Str} (hm : m ∈ s) :
    m ∈ ["zero".toList, "one".toList, "three".toList] := by
  have := hs hm
  simpa using this

example (ld : (Fin 10 → Bool) → Str → Str → Draws) :
    Likely (Measure.pi fun _ : Fin 10 => fairCoin) (85 / 100) {ω | Conclusions (ShowsR (Regr.justBenchmark studentT ['f'] ['f'] coinTrainX
      (realArr [7]) (coinTestX ω) (realArr (List.ofFn fun i => coinTarget (ω i))) coinReg stdRegrLoss "one".toList (.fin 0) false .bernstein
      coinRegLimits (ld ω)) "MSE".toList) {"zero".toList, "one".toList, "three".toList}
      fun m => regrRisk fairCoin (fun a m _ => (a - m) ^ 2) 0 coinTarget (coinMean m) (fun _ => 1)} ∧
    Likely (Measure.pi fun _ : Fin 10 => fairCoin) (90 / 100) {ω | ∀ i ∈ (Finset.univ : Finset Bool), ∀ cell, ShowsR (Regr.justBenchmark studentT ['f'] ['f']
      coinTrainX (realArr [7]) (coinTestX ω) (realArr (List.ofFn fun i => coinTarget (ω i))) coinReg stdRegrLoss "one".toList (.fin 0) false .bernstein
      coinRegLimits (ld ω)) "MSE".toList ((fun i : Bool => if i then "zero".toList else "three".toList) i) cell →
      BarHolds cell (regrRisk fairCoin (fun a m _ => (a - m) ^ 2) 0 coinTarget
        (coinMean ((fun i : Bool => if i then "zero".toList else "three".toList) i)) (fun _ => 1))} ∧
    Likely (Measure.pi fun _ : Fin 10 => fairCoin) (90 / 100) {ω | ∀ full, Regr.justBenchmark studentT ['f'] ['f'] coinTrainX
      (realArr [7]) (coinTestX ω) (realArr (List.ofFn fun i => coinTarget (ω i))) coinReg stdRegrLoss "one".toList (.fin 0) true .bernstein
      coinRegLimits (ld ω) = .ok full → ∀ m ∈ ({"zero".toList, "three".toList} : Finset Str), ∀ cell cellRef, FullCell full "MSE".toList m cell →
      FullCell full "MSE".toList "one".toList cellRef →
      (Ahead cell cellRef → regrRisk fairCoin (fun a m _ => (a - m) ^ 2) 0 coinTarget (coinMean m) (fun _ => 1) <
        regrRisk fairCoin (fun a m _ => (a - m) ^ 2) 0 coinTarget (coinMean "one".toList) (fun _ => 1)) ∧
      (Behind cell cellRef → regrRisk fairCoin (fun a m _ => (a - m) ^ 2) 0 coinTarget (coinMean "one".toList) (fun _ => 1) <
        regrRisk fairCoin (fun a m _ => (a - m) ^ 2) 0 coinTarget (coinMean m) (fun _ => 1))} ∧
    (Measure.pi fun _ : Fin 10 => fairCoin).real {ω | ∃ i ∈ ({()} : Finset Unit), ∃ cell, ShowsR (Regr.justBenchmark studentT ['f'] ['f'] coinTrainX
      (realArr [7]) (coinTestX ω) (realArr (List.ofFn fun i => coinTarget (ω i))) coinReg stdRegrLoss "one".toList (.fin 0) true .bernstein
      coinRegLimits (ld ω)) ((fun _ : Unit => ("MSE".toList, Regr.squareLoss)) i).1 "zero".toList cell ∧
      Flagged cell (1 / 100 / ({()} : Finset Unit).card)} ≤ 1 / 100 := by
  refine ⟨(C143_regr_conclusions (std := fun _ _ => 1) (loss := ("MSE".toList, Regr.squareLoss)) (s := {"zero".toList, "one".toList, "three".toList})
      (fun m hm => coinReg_setup (coinReg_mem subset_rfl hm) (by simp)) (tosses_drawn 10) (fun ω => coinReg_testSet ω)).weaken ?_,
    (C143_regr_table (std := fun _ _ => 1) (loss := fun _ : Bool => ("MSE".toList, Regr.squareLoss)) (f := fun _ a m _ => (a - m) ^ 2)
      (method := fun i => if i then "zero".toList else "three".toList) (l := fun _ => 0) (u := fun _ => 10)
      (fun i _ => coinReg_setup (by cases i <;> simp) (by simp)) (tosses_drawn 10) (fun ω => coinReg_testSet ω)).weaken ?_,
    (C143_regr_pairwise (std := fun _ _ => 1) (loss := ("MSE".toList, Regr.squareLoss)) (s := {"zero".toList, "three".toList})
      (fun m hm => coinReg_setup (coinReg_mem (by decide) hm) (by simp)) (by decide) (tosses_drawn 10) (fun ω => coinReg_testSet ω)).weaken ?_,
    C143_regr_p_values (std := fun _ _ => 1) (f := fun _ a m _ => (a - m) ^ 2) (l := fun _ => 0) (u := fun _ => 10)
      (fun _ _ => coinReg_setup (by simp) (by simp)) (fun _ _ => by decide) (tosses_drawn 10) (fun ω => coinReg_testSet ω)
      (fun _ _ => coinReg_risk.1.trans coinReg_risk.2.1.symm) (by norm_num)⟩
  · rw [show (({"zero".toList, "one".toList, "three".toList} : Finset Str)).card = 3 by decide]
    norm_num
  · norm_num
  · rw [show (({"zero".toList, "three".toList} : Finset Str)).card = 2 by decide]
    norm_num

example (ld : ℕ → (ℕ → Bool) → Str → Str → Draws) :
    (∀ᶠ n in atTop, Likely (Measure.infinitePi fun _ : ℕ => fairCoin) (84 / 100) {ω | Conclusions (ShowsR (Regr.justBenchmark studentT ['f'] ['f']
      coinTrainX (realArr [7]) (coinTestX fun i : Fin n => ω i) (realArr (List.ofFn fun i : Fin n => coinTarget (ω i))) coinReg stdRegrLoss "one".toList
      (.fin 0) false .t coinRegLimits (ld n ω)) "MSE".toList) {"zero".toList, "one".toList, "three".toList}
      fun m => regrRisk fairCoin (fun a m _ => (a - m) ^ 2) 0 coinTarget (coinMean m) (fun _ => 1)}) ∧
    (∀ᶠ n in atTop, Likely (Measure.infinitePi fun _ : ℕ => fairCoin) (89 / 100) {ω | ∀ full, Regr.justBenchmark studentT ['f'] ['f']
      coinTrainX (realArr [7]) (coinTestX fun i : Fin n => ω i) (realArr (List.ofFn fun i : Fin n => coinTarget (ω i))) coinReg stdRegrLoss "one".toList
      (.fin 0) true .t coinRegLimits (ld n ω) = .ok full → ∀ m ∈ ({"zero".toList, "three".toList} : Finset Str), ∀ cell cellRef,
      FullCell full "MSE".toList m cell → FullCell full "MSE".toList "one".toList cellRef →
      (Ahead cell cellRef → regrRisk fairCoin (fun a m _ => (a - m) ^ 2) 0 coinTarget (coinMean m) (fun _ => 1) <
        regrRisk fairCoin (fun a m _ => (a - m) ^ 2) 0 coinTarget (coinMean "one".toList) (fun _ => 1)) ∧
      (Behind cell cellRef → regrRisk fairCoin (fun a m _ => (a - m) ^ 2) 0 coinTarget (coinMean "one".toList) (fun _ => 1) <
        regrRisk fairCoin (fun a m _ => (a - m) ^ 2) 0 coinTarget (coinMean m) (fun _ => 1))}) ∧
    ∀ᶠ n in atTop, (Measure.infinitePi fun _ : ℕ => fairCoin).real {ω | ∃ i ∈ ({()} : Finset Unit), ∃ cell, ShowsR (Regr.justBenchmark studentT ['f'] ['f']
      coinTrainX (realArr [7]) (coinTestX fun i : Fin n => ω i) (realArr (List.ofFn fun i : Fin n => coinTarget (ω i))) coinReg stdRegrLoss "one".toList
      (.fin 0) false .t coinRegLimits (ld n ω)) ((fun _ : Unit => ("MSE".toList, Regr.squareLoss)) i).1 "zero".toList cell ∧
      Flagged cell (5 / 100 / ({()} : Finset Unit).card)} ≤ 5 / 100 + 1 / 100 := by
  refine ⟨(C143_regr_conclusions_t (std := fun _ _ => 1) (loss := ("MSE".toList, Regr.squareLoss)) (s := {"zero".toList, "one".toList, "three".toList})
      (fun m hm => coinReg_setup (coinReg_mem subset_rfl hm) (by simp)) stream_drawn
      (fun n ω => coinReg_testSet fun i : Fin n => ω i) (fun _ _ => coin_integrable _) ?_ (δ := 1 / 100) (by norm_num)).mono fun n h => h.weaken ?_,
    (C143_regr_pairwise_t (std := fun _ _ => 1) (loss := ("MSE".toList, Regr.squareLoss)) (s := {"zero".toList, "three".toList})
      (fun m hm => coinReg_setup (coinReg_mem (by decide) hm) (by simp)) (by decide) stream_drawn
      (fun n ω => coinReg_testSet fun i : Fin n => ω i) (fun _ _ => coin_integrable _) ?_ (δ := 1 / 100) (by norm_num)).mono fun n h => h.weaken ?_,
    C143_regr_p_values_t (std := fun _ _ => 1) (f := fun _ a m _ => (a - m) ^ 2) (lower := fun _ => .fin 0) (upper := fun _ => .fin 10)
      (fun _ _ => coinReg_setup (by simp) (by simp)) (fun _ _ => by decide) stream_drawn
      (fun n ω => coinReg_testSet fun i : Fin n => ω i) (fun _ _ _ _ => coin_integrable _) (fun _ _ => ?_)
      (fun _ _ => coinReg_risk.1.trans coinReg_risk.2.1.symm) (by norm_num) (by norm_num) (by norm_num)⟩
  · intro m hm
    simp only [Finset.mem_insert, Finset.mem_singleton] at hm
    rcases hm with rfl | rfl | rfl
    · rw [fairCoin_integral, coinReg_risk.1]
      norm_num [coinTarget, coinMean_eq]
    · rw [fairCoin_integral, coinReg_risk.2.1]
      norm_num [coinTarget, coinMean_eq]
    · rw [fairCoin_integral, coinReg_risk.2.2]
      norm_num [coinTarget, coinMean_eq]
  · rw [show (({"zero".toList, "one".toList, "three".toList} : Finset Str)).card = 3 by decide]
    norm_num
  · intro m hm
    simp only [Finset.mem_insert, Finset.mem_singleton] at hm
    rcases hm with rfl | rfl
    · rw [fairCoin_integral, coinReg_risk.1, coinReg_risk.2.1]
      norm_num [coinTarget, coinMean_eq]
    · rw [fairCoin_integral, coinReg_risk.2.2, coinReg_risk.2.1]
      norm_num [coinTarget, coinMean_eq]
  · rw [show (({"zero".toList, "three".toList} : Finset Str)).card = 2 by decide]
    norm_num
  · rw [fairCoin_integral]
    norm_num [coinTarget, coinMean_eq]

end Mlp.Props
