import Verif.Props.Spherical
import Verif.Props.Brier
import Verif.Props.ClassBench
import Verif.Props.RegrBench
import Verif.Props.Uniform
import Verif.Props.Noise

/-!
# Cases for the theorems about losses, predictions and their tables
-/

namespace Mlp.Props
open Mlp.Util Mlp.Spec Mlp.Classif Mlp.Lemmas Mlp.Frame

/-! ### Losses of classifiers -/

/-- The rows (1/4, 3/4) and (1, 0). -/
noncomputable def distMat : Mat ℝ := ⟨2, [logRow [1 / 4, 3 / 4], logRow [1, 0]]⟩

theorem distMat_input : ClassInput ⟨'i', [1, 0]⟩ distMat := ⟨Or.inr rfl, by simp [distMat], by simp [distMat], rfl, by simp [distMat, logRow], by simp [distMat]⟩

theorem distMat_dist : ∀ r ∈ distMat.rows, IsDist r := by
  simp only [distMat, List.mem_cons, List.not_mem_nil, or_false]
  rintro r (rfl | rfl)
  · exact isDist_logRow exampleDist
  · exact isDist_logRow ⟨by norm_num, by norm_num⟩

example := C75_nonneg distMat_input distMat_dist
example := C76_range distMat_input distMat_dist true
example := C77_range exampleClass exampleProper

example : ∃ L, sphericalLoss true ⟨'i', [2, 0]⟩ ⟨3, [[.fin 1, .fin 1, .fin 1], [.fin (-4), .fin (-4), .fin (-4)]]⟩ = .ok L ∧ ∀ v ∈ L, v = .fin 1 :=
  C77_uniform ⟨Or.inr rfl, by simp, by simp, rfl, by simp, by simp⟩ (by norm_num) (by
    simp only [List.mem_cons, List.not_mem_nil, or_false]
    rintro r (rfl | rfl)
    exacts [⟨1, rfl⟩, ⟨-4, rfl⟩])

/-- The label 2 does not occur among two labels. -/
example : logLoss ⟨'i', [2, 0]⟩ distMat = .error .assertion :=
  (C74_reject (y := ⟨'i', [2, 0]⟩) (p := distMat) (by simp [Mat.Ok, distMat, logRow]) (fun h => by
    have := (h.range 2 (by simp)).2
    simp [distMat] at this) none true).2.1

/-- A loss matrix for one label, with two in the predictions. -/
example : hardLoss (some (finMat 2 [[0, 1]])) ⟨'i', [1, 0]⟩ distMat = .error .assertion :=
  C74_reject_matrix distMat_input (Or.inl (by simp [finMat, distMat]))

/-! ### Tables of losses -/

theorem exampleLosses : ∃ tbl, lossTable exampleTable ⟨'b', [1, 0]⟩ [("NLL".toList, logLoss)] false = .ok tbl :=
  C79_success exampleTable_good rfl false exampleMetric

example : ∃ tbl, lossTable exampleTable ⟨'b', [1, 0]⟩ [("NLL".toList, logLoss)] false = .ok tbl ∧ tbl.methods.Perm ["a".toList, "b".toList] ∧ Complete tbl := by
  obtain ⟨tbl, h⟩ := exampleLosses
  obtain ⟨-, -, h1, -, -, h2, -⟩ := C79_columns (by simp) (by simp [exampleTable]) h
  exact ⟨tbl, h, h1.1, h2⟩

/-- The losses of a method do not depend on the order of the methods. -/
example : ∃ tbl tbl', lossTable exampleTable ⟨'b', [1, 0]⟩ [("NLL".toList, logLoss)] false = .ok tbl ∧
    lossTable { exampleTable with methods := ["b".toList, "a".toList] } ⟨'b', [1, 0]⟩ [("NLL".toList, logLoss)] false = .ok tbl' ∧
      ∃ L, HasLoss tbl "NLL".toList "a".toList L ∧ HasLoss tbl' "NLL".toList "a".toList L := by
  obtain ⟨tbl, h⟩ := exampleLosses
  have hg : GoodTable { exampleTable with methods := ["b".toList, "a".toList] } :=
    ⟨by simp [exampleTable], by simp [exampleTable], by simp, by
      intro m hm
      simp only [List.mem_cons, List.not_mem_nil, or_false] at hm
      rcases hm with rfl | rfl <;> rfl, by simp [exampleTable], by simp [exampleTable]⟩
  obtain ⟨tbl', h'⟩ := C79_success hg (y := ⟨'b', [1, 0]⟩) rfl false exampleMetric
  exact ⟨tbl, tbl', h, h', C79_local (m := ("NLL".toList, logLoss)) (by simp) (by simp [exampleTable]) (by simp) (by simp) h h' rfl (by simp) (by simp)
    (by simp [exampleTable]) (by simp) fun _ _ => Iff.rfl⟩

example : ∃ tbl, lossTable exampleTable ⟨'b', [1, 0]⟩ [("NLL".toList, logLoss)] true = .ok tbl :=
  C79_success_on exampleTable_good rfl true fun m hm _ _ p q hp h1 _ h2 => by
    obtain rfl := h1 rfl
    exact exampleMetric m hm _ hp.1 hp.2.1 h2

example : lossTable exampleTable ⟨'b', [1]⟩ [("NLL".toList, logLoss)] true = .error .assertion :=
  C79_reject _ true (Or.inl (by simp [exampleTable]))

example (tbl : Paper.LossTable) : lossTable exampleNaN ⟨'b', [1, 0]⟩ [("NLL".toList, logLoss)] true ≠ .ok tbl :=
  C78_nan (method := "b".toList) (by simp [exampleNaN, exampleTable]) (isMatrix_of (rfl : InOrder exampleNaN "b".toList)) ⟨[.fin 0, .nan], by right; left, by simp⟩ tbl

/-! ### Predictions -/

example : justNoiseFit 2 0 ⟨'i', []⟩ = .ok [.nan, .nan] := C80_empty (n := 2) ⟨by norm_num, rfl, by simp⟩ rfl

/-- The finite floor makes every row a distribution. -/
example : ∃ t, getPredLogProb exampleTrain exampleY exampleTest 2 [("a".toList, exampleEst)] (.fin (-2)) = .ok t ∧
    ∀ q, IsMatrix t "a".toList q → ∀ r ∈ q.rows, IsDist r := by
  obtain ⟨t, ht⟩ := C81_success (methods := [("a".toList, exampleEst)]) (exampleGood (.fin (-2)) (by norm_num))
    (by simpa using ⟨_, examplePredicts, rfl, rfl⟩)
  refine ⟨t, ht, fun q hq => C81_normalised (by simp) exampleRect ?_ ht (m := ("a".toList, exampleEst)) (by simp) hq⟩
  intro m hm p hp r hr
  obtain rfl := List.mem_singleton.1 hm
  have e := (trainPredict_ok_iff ..).2 hp
  rw [(trainPredict_ok_iff ..).2 examplePredicts, Except.ok.injEq] at e
  subst e
  refine ⟨?_, Or.inr ⟨-2, rfl⟩⟩
  simp only [List.mem_cons, List.not_mem_nil, or_false] at hr
  rcases hr with rfl | rfl <;> exact logRow_ok _

/-! ### Helpers -/

example := C54_one_hot (y := ⟨'i', [2, 0]⟩) (n := 3) ⟨by norm_num, rfl, by simp⟩
example := C62_clip_chk (K := ℚ) [.fin (-1 / 1000000000), .fin (1 / 2), .fin 1] (lo := .fin 0) (hi := .fin 1) (by simp) (by simp) (by simp)
example := C56_noise (xs := [1, 3 / 2, 1]) (u := [0, 3 / 4, (1 / 2 : ℚ)]) (d := 1 / 10000000000) (m := 1) rfl (by norm_num) (by norm_num) (by norm_num)
example : epsilonNoise [.fin 1, .pinf] (1 / 10000000000) 1 [0, (1 / 2 : ℚ)] = .error .assertion := C56_reject _ _ _ _ (Or.inl ⟨.pinf, by simp, rfl⟩)

end Mlp.Props

namespace Mlp.Props
open Mlp Mlp.Splitter Mlp.Spec Mlp.Lemmas

/-! ### Random splits -/

/-- Two of three values, each pair equally likely. -/
example : HasProb 3 (fun σ => randomSplit (id : ℚ → ℚ) (fun _ => shuffle σ) (noNull [7, 9, 8, 7]) (1 / 2) false =
    .ok ([7, 9, 8, 7].map fun v => decide (v ∈ ({7, 8} : Finset Nat)))) 1 3 :=
  C97_random_split (u := 3) (N := 2) isRounding_id (by simp) (by norm_num) (by norm_num) (by decide)
    (by symm; rw [Int.ceil_eq_iff]; norm_num) (by decide) (by decide)

/-- One of two rows with repeated values. -/
example : HasProb 3 (fun σ => ∃ mask, randomSplit (id : ℚ → ℚ) (fun _ => shuffle σ) (noNull [7, 9, 7]) (1 / 2) true = .ok mask ∧ mask[0]? = some true) 2 3 :=
  C97_row_unique (vals := [7, 9, 7]) (frac := (1 / 2 : ℚ)) (n := 3) (N := 2) (i := 0) isRounding_id (by norm_num) (by norm_num) rfl (by symm; rw [Int.ceil_eq_iff]; norm_num) (by norm_num)

end Mlp.Props

namespace Mlp.Props
open Mlp.Util Mlp.Spec Mlp.Regr Mlp.Lemmas Mlp.Frame

/-! ### Regression -/

example := C85_abs regrInput_example rfl rfl rfl
example := C85_log regrInput_example rfl rfl rfl
example := C85_square_abs regrInput_example rfl rfl rfl
example := C85_density 1 2 3 (by norm_num)
example := C86_scale (ys := [1, 2]) (ms := [0, 4]) (ss := [1, 3]) (by simp) rfl rfl (by simp) (by
  intro i hi
  have : i = 0 ∨ i = 1 := by simp only [List.length_cons, List.length_nil] at hi; omega
  rcases this with rfl | rfl <;> norm_num)
example := C86_square (xs := [0, 2]) (by simp) 5 1 2 (by norm_num) (by norm_num)

theorem gaussLosses : ∃ tbl, lossTable gaussExample (.vec [.fin 1, .fin 7]) stdRegrLoss = .ok tbl := by
  obtain ⟨tbl, h, -⟩ := C89_standard gaussExample_good (by unfold gaussExample; decide) gaussExample_nodup
    (by unfold gaussExample; simp) (y := .vec [.fin 1, .fin 7]) (by simp [Arr.vec, Arr.Ok])
    (by simp [Arr.vec, gaussExample]) (by simp [Arr.vec]) (by unfold gaussExample; simp)
    (by unfold gaussExample; simp [Flt.fin_lt_fin])
  exact ⟨tbl, h⟩

example : ∃ tbl, lossTable gaussExample (.vec [.fin 1, .fin 7]) stdRegrLoss = .ok tbl ∧ Complete tbl ∧ tbl.metrics.Perm ["NLL".toList, "MSE".toList, "MAE".toList] := by
  obtain ⟨tbl, h⟩ := gaussLosses
  obtain ⟨-, -, h1, -, -, -, h2, -⟩ := C89_columns stdRegr_nodup (by unfold gaussExample; decide) gaussExample_nodup h
  exact ⟨tbl, h, h2, h1.1.trans (by simp only [stdRegrLoss, List.map_cons, List.map_nil]; decide)⟩

example : ∃ tbl, lossTable gaussExample (.vec [.fin 1, .fin 7]) [] = .ok tbl :=
  C89_success gaussExample_good (by simp [Arr.vec, gaussExample]) (by simp)

/-- The loss that always fails. -/
example : lossTable gaussExample (.vec [.fin 1, .fin 7]) [("bad".toList, fun _ _ _ => .error .typeError)] = .error .typeError :=
  C89_error (ok := []) (rest := []) (before := []) (method := "a".toList) (after := ["b".toList]) (mu := [.fin 1, .fin 2]) (std := [.fin 1, .fin 1])
    gaussExample_good.moments (by unfold gaussExample; norm_num) (by simp [Arr.vec, gaussExample]) rfl rfl (by simp)
    (hasCol_of_mem gaussExample_nodup (by unfold gaussExample; simp)) (hasCol_of_mem gaussExample_nodup (by unfold gaussExample; simp)) (by simp) rfl

/-- A table with one method less. -/
noncomputable def gaussLess : GaussTable :=
  ⟨["b".toList], ["mu".toList, "std".toList], 2,
    [(("b".toList, "mu".toList), [.fin 0, .fin 5]), (("b".toList, "std".toList), [.fin 2, .fin 3])]⟩

theorem gaussLess_nodup : (gaussLess.cols.map (·.1)).Nodup := by unfold gaussLess; simp only [List.map_cons, List.map_nil]; decide

theorem gaussLess_mu : HasCol gaussLess.cols ("b".toList, "mu".toList) [.fin 0, .fin 5] :=
  hasCol_of_mem gaussLess_nodup (by unfold gaussLess; simp)

theorem gaussLess_std : HasCol gaussLess.cols ("b".toList, "std".toList) [.fin 2, .fin 3] :=
  hasCol_of_mem gaussLess_nodup (by unfold gaussLess; simp)

/-- The squared losses of a method do not depend on the other methods. -/
example : ∃ tbl tbl', lossTable gaussLess (.vec [.fin 1, .fin 7]) stdRegrLoss = .ok tbl ∧
    lossTable gaussExample (.vec [.fin 1, .fin 7]) stdRegrLoss = .ok tbl' ∧
      ∃ L, HasLoss tbl "MSE".toList "b".toList L ∧ HasLoss tbl' "MSE".toList "b".toList L := by
  obtain ⟨tbl', h'⟩ := gaussLosses
  have muB : HasCol gaussExample.cols ("b".toList, "mu".toList) [.fin 0, .fin 5] :=
    hasCol_of_mem gaussExample_nodup (by unfold gaussExample; simp)
  have stdB : HasCol gaussExample.cols ("b".toList, "std".toList) [.fin 2, .fin 3] :=
    hasCol_of_mem gaussExample_nodup (by unfold gaussExample; simp)
  obtain ⟨tbl, h, -⟩ := C89_standard (t := gaussLess)
    ⟨by unfold gaussLess; decide, by unfold gaussLess; norm_num, by unfold gaussLess; simp, fun m hm => by
      obtain rfl : m = "b".toList := by unfold gaussLess at hm; simpa using hm
      exact ⟨⟨_, gaussLess_mu⟩, _, gaussLess_std⟩⟩
    (by unfold gaussLess; decide) gaussLess_nodup
    (by unfold gaussLess; simp) (y := .vec [.fin 1, .fin 7]) (by simp [Arr.vec, Arr.Ok])
    (by simp [Arr.vec, gaussLess]) (by simp [Arr.vec]) (by unfold gaussLess; simp)
    (by unfold gaussLess; simp [Flt.fin_lt_fin])
  exact ⟨tbl, tbl', h, h', C89_local (m := ("MSE".toList, squareLoss)) stdRegr_nodup (by unfold gaussLess; decide) gaussLess_nodup stdRegr_nodup
    (by unfold gaussExample; decide) gaussExample_nodup h h' (by unfold stdRegrLoss; simp) (by unfold stdRegrLoss; simp) (by unfold gaussLess; simp)
    (by unfold gaussExample; simp) fun v =>
      ⟨⟨fun h => by rw [hasCol_unique h gaussLess_mu]; exact muB, fun h => by rw [hasCol_unique h muB]; exact gaussLess_mu⟩,
        fun h => by rw [hasCol_unique h gaussLess_std]; exact stdB, fun h => by rw [hasCol_unique h stdB]; exact gaussLess_std⟩⟩

/-- The predictions of a method do not depend on the other methods. -/
example : ∃ t t', getGaussPred regrTrain (realArr [4, 4, 4]) regrTest [("mean".toList, meanOnly)] (.fin (1 / 2)) = .ok t ∧
    getGaussPred regrTrain (realArr [4, 4, 4]) regrTest [("noise".toList, Regr.justNoise), ("mean".toList, meanOnly)] (.fin (1 / 2)) = .ok t' ∧
      ∃ mu, HasCol t.cols ("mean".toList, "mu".toList) mu ∧ HasCol t'.cols ("mean".toList, "mu".toList) mu := by
  obtain ⟨t', h'⟩ := regrExample_ok
  obtain ⟨t, h⟩ : ∃ t, getGaussPred regrTrain (realArr [4, 4, 4]) regrTest [("mean".toList, meanOnly)] (.fin (1 / 2)) = .ok t := by
    refine C88_success (regrGood _ (by norm_num)) ?_
    intro m hm
    obtain rfl := List.mem_singleton.1 hm
    exact ⟨.vec [.fin 5, .fin 5], .vec [.fin 1, .fin 1], ⟨_, rfl, Or.inr ⟨rfl, rfl, rfl, rfl, by simp [Arr.vec]⟩⟩, rfl, rfl, rfl, rfl⟩
  obtain ⟨-, mu, std, h1, h2, -⟩ := C88_local (by simp) (by simp only [List.map_cons, List.map_nil]; decide) h h' (m := ("mean".toList, meanOnly)) (by simp) (by simp)
  exact ⟨t, t', h, h', mu, h1, h2⟩

open Mlp.Paper (RefDist Draws) in
/-- The reference is in the table of the benchmark of `echo`. -/
example (T : Nat → RefDist) (hT : IsSymmetric (T 1)) (draws : Str → Str → Draws) :
    ∃ full, Regr.justBenchmark T ['f'] ['f'] echoTrain (realArr [7]) (echoTest [1, 5]) (realArr [2, 3])
        [("echo".toList, echo)] stdRegrLoss "echo".toList (.fin 0) false .t [] draws = .ok full ∧ "echo".toList ∈ full.methods := by
  obtain ⟨full, h, -⟩ := echo_ok T hT draws
  exact ⟨full, h, (C91_regr (by simp) stdRegr_nodup h).2.1⟩

end Mlp.Props
