import Verif.Lemmas.TwoSample
import Verif.Props.RankingEx

/-! # C147: with how much certainty the AUC of a benchmark is close to the truth -/

namespace Mlp.Props
open Mlp Mlp.Util Mlp.Spec Mlp.Classif Mlp.Lemmas Mlp.Frame Mlp.Boot Mlp.Perf Mlp.Paper MeasureTheory ProbabilityTheory

variable {S Ω : Type} [MeasurableSpace S] [MeasurableSpace Ω] {P : Measure Ω} [IsProbabilityMeasure P] {pos neg : Measure S}
  [IsProbabilityMeasure pos] [IsProbabilityMeasure neg]

section
variable {n : ℕ} {lab : Fin n → Bool} {draw : Fin n → Ω → S}

omit [IsProbabilityMeasure pos] [IsProbabilityMeasure neg] in
theorem rankPairs_tail (hd : DrawnCases P pos neg lab draw) (h1 : 0 < numLab lab true) (h0 : 0 < numLab lab false) {F : S × S → ℝ} (hF : Measurable F)
    {lo hi : ℝ} (hlt : lo < hi) (hr : ∀ p, lo ≤ F p ∧ F p ≤ hi) {ε : ℝ} (hε : 0 ≤ ε) :
    P.real {ω | ε ≤ (∑ p ∈ rankPairs lab, F (draw p.1 ω, draw p.2 ω)) / (numLab lab true * numLab lab false) - ∫ p, F p ∂(pos.prod neg)} ≤
      Real.exp (-(2 * (min (numLab lab true) (numLab lab false) : ℕ) * (ε / (hi - lo)) ^ 2)) ∧
    P.real {ω | ε ≤ ∫ p, F p ∂(pos.prod neg) - (∑ p ∈ rankPairs lab, F (draw p.1 ω, draw p.2 ω)) / (numLab lab true * numLab lab false)} ≤
      Real.exp (-(2 * (min (numLab lab true) (numLab lab false) : ℕ) * (ε / (hi - lo)) ^ 2)) := by
  let e : (b : Bool) → Fin (numLab lab b) ↪o Fin n := fun b => (Finset.univ.filter fun i => lab i = b).orderEmbOfFin rfl
  have he : ∀ b i, lab (e b i) = b := fun b i => (Finset.mem_filter.1 (Finset.orderEmbOfFin_mem (Finset.univ.filter fun i => lab i = b) rfl i)).2
  have hs : ∀ b (f : Fin n → ℝ), ∑ i, f (e b i) = ∑ i ∈ Finset.univ.filter (fun i => lab i = b), f i := fun b f => by
    rw [← Finset.map_orderEmbOfFin_univ (Finset.univ.filter fun i => lab i = b) rfl, Finset.sum_map]
    rfl
  have key := pairs_tail (P := P) h1 h0 hd.meas hd.indep (u := e true) (v := e false) (e true).injective (e false).injective
    (fun i j h => by
      have := congrArg lab h
      rw [he, he] at this
      cases this) hF hlt hr (θ := ∫ p, F p ∂(pos.prod neg)) (fun i j => by
      rw [← pair_law hd (p := (e true i, e false j)) (mem_rankPairs.2 ⟨he _ _, he _ _⟩),
        integral_map ((hd.meas _).prodMk (hd.meas _)).aemeasurable hF.aestronglyMeasurable]) hε
  have hsum : ∀ ω, ∑ i, ∑ j, F (draw (e true i) ω, draw (e false j) ω) = ∑ p ∈ rankPairs lab, F (draw p.1 ω, draw p.2 ω) := by
    intro ω
    unfold rankPairs
    rw [Finset.sum_product, ← hs true fun i => ∑ j ∈ Finset.univ.filter (fun i => lab i = false), F (draw i ω, draw j ω)]
    exact Finset.sum_congr rfl fun i _ => hs false fun j => F (draw (e true i) ω, draw j ω)
  simp only [hsum] at key
  exact key

theorem two_tails {X : Ω → ℝ} {θ ε B : ℝ} (h1 : P.real {ω | ε ≤ X ω - θ} ≤ B) (h2 : P.real {ω | ε ≤ θ - X ω} ≤ B) :
    P.real {ω | ε ≤ |X ω - θ|} ≤ 2 * B := by
  have hsub : {ω | ε ≤ |X ω - θ|} ⊆ {ω | ε ≤ X ω - θ} ∪ {ω | ε ≤ θ - X ω} := by
    intro ω hω
    rcases le_abs.1 (show ε ≤ |X ω - θ| from hω) with h | h
    · exact Or.inl h
    · exact Or.inr (by rw [neg_sub] at h; exact h)
  calc P.real {ω | ε ≤ |X ω - θ|} ≤ P.real ({ω | ε ≤ X ω - θ} ∪ {ω | ε ≤ θ - X ω}) := measureReal_mono hsub
    _ ≤ P.real {ω | ε ≤ X ω - θ} + P.real {ω | ε ≤ θ - X ω} := measureReal_union_le _ _
    _ ≤ 2 * B := by linarith

theorem rankShare_tail (hd : DrawnCases P pos neg lab draw) (h1 : 0 < numLab lab true) (h0 : 0 < numLab lab false) {g : S → ℝ} (hg : Measurable g) {ε : ℝ}
    (hε : 0 ≤ ε) :
    P.real {ω | ε ≤ rankShare lab (fun i => g (draw i ω)) - rankProb pos neg g} ≤
      Real.exp (-(2 * (min (numLab lab true) (numLab lab false) : ℕ) * ε ^ 2)) ∧
    P.real {ω | ε ≤ rankProb pos neg g - rankShare lab (fun i => g (draw i ω))} ≤
      Real.exp (-(2 * (min (numLab lab true) (numLab lab false) : ℕ) * ε ^ 2)) := by
  have := rankPairs_tail hd h1 h0 (ordered_measurable hg) (lo := 0) (hi := 1) one_pos (fun p => ordered_range _ _) hε
  rw [integral_ordered hg, sub_zero, div_one] at this
  exact this

theorem ordered_integrable {g : S → ℝ} (hg : Measurable g) : Integrable (fun p : S × S => ordered (g p.1) (g p.2)) (pos.prod neg) :=
  Integrable.of_bound (ordered_measurable hg).aestronglyMeasurable 1 (.of_forall fun p => by
    rw [Real.norm_eq_abs, abs_of_nonneg (ordered_range _ _).1]; exact (ordered_range _ _).2)

theorem rankShare_diff_tail (hd : DrawnCases P pos neg lab draw) (h1 : 0 < numLab lab true) (h0 : 0 < numLab lab false) {g g' : S → ℝ} (hg : Measurable g)
    (hg' : Measurable g') {ε : ℝ} (hε : 0 ≤ ε) :
    P.real {ω | ε ≤ (rankShare lab (fun i => g (draw i ω)) - rankShare lab (fun i => g' (draw i ω))) - (rankProb pos neg g - rankProb pos neg g')} ≤
      Real.exp (-((min (numLab lab true) (numLab lab false) : ℕ) * ε ^ 2 / 2)) ∧
    P.real {ω | ε ≤ (rankProb pos neg g - rankProb pos neg g') - (rankShare lab (fun i => g (draw i ω)) - rankShare lab (fun i => g' (draw i ω)))} ≤
      Real.exp (-((min (numLab lab true) (numLab lab false) : ℕ) * ε ^ 2 / 2)) := by
  have := rankPairs_tail hd h1 h0 ((ordered_measurable hg).sub (ordered_measurable hg')) (lo := -1) (hi := 1) (by norm_num) (fun p => by
    have a := ordered_range (g p.1) (g p.2)
    have b := ordered_range (g' p.1) (g' p.2)
    simp only [Pi.sub_apply]
    constructor <;> linarith) hε
  simp only [Pi.sub_apply] at this
  rw [integral_sub (ordered_integrable hg) (ordered_integrable hg'), integral_ordered hg, integral_ordered hg'] at this
  simp only [Finset.sum_sub_distrib, sub_div] at this
  have e : -(2 * ((min (numLab lab true) (numLab lab false) : ℕ) : ℝ) * (ε / (1 - -1)) ^ 2) = -((min (numLab lab true) (numLab lab false) : ℕ) * ε ^ 2 / 2) := by
    ring
  rw [e] at this
  exact this

/-- **C147, one curve.**  The area under the ROC curve of `n₁` positive and `n₀` negative cases differs from the probability that a new positive case has a
higher score than a new negative case by `ε` or more, in a given direction, with probability at most `exp(-2 min(n₁, n₀) ε²)`. -/
theorem C147_auc (hd : DrawnCases P pos neg lab draw) (h1 : 0 < numLab lab true) (h0 : 0 < numLab lab false) {g : S → ℝ} (hg : Measurable g) :
    ∃ auc : Ω → ℝ, (∀ ω A, AreaOf rocCurve (List.ofFn lab) (finVec (List.ofFn fun i => g (draw i ω))) none A ↔ A = [.fin (auc ω)]) ∧
      ∀ ε ≥ 0, P.real {ω | rankProb pos neg g + ε ≤ auc ω} ≤ Real.exp (-(2 * (min (numLab lab true) (numLab lab false) : ℕ) * ε ^ 2)) ∧
        P.real {ω | auc ω ≤ rankProb pos neg g - ε} ≤ Real.exp (-(2 * (min (numLab lab true) (numLab lab false) : ℕ) * ε ^ 2)) := by
  refine ⟨fun ω => rankShare lab fun i => g (draw i ω), fun _ _ => roc_share_iff h1 h0 _, fun ε hε => ?_⟩
  have := rankShare_tail hd h1 h0 hg hε
  constructor
  · refine (measureReal_mono fun ω hω => ?_).trans this.1
    have hω' : rankProb pos neg g + ε ≤ rankShare lab (fun i => g (draw i ω)) := hω
    change ε ≤ rankShare lab _ - rankProb pos neg g
    linarith
  · refine (measureReal_mono fun ω hω => ?_).trans this.2
    have hω' : rankShare lab (fun i => g (draw i ω)) ≤ rankProb pos neg g - ε := hω
    change ε ≤ rankProb pos neg g - rankShare lab _
    linarith

variable {D : Type}

/-- **C147, benchmark.**  The AUCs that `just_benchmark` shows.  (i) Each is off by `ε` or more with probability at most `2 exp(-2 min(n₁, n₀) ε²)`.
(ii) Except with probability `δ` all of them are off by less than `√(log(2k/δ) / (2 min(n₁, n₀)))`, for `k` methods.  (iii) The difference between two methods is
off by `ε` or more with probability at most `2 exp(-min(n₁, n₀) ε²/2)`.  (iv) The better of two methods does not get the higher AUC with probability at
most `exp(-min(n₁, n₀) Δ²/2)`, if `Δ` is the true difference. -/
theorem C147_benchmark {T : Nat → RefDist} {other : Interp ℝ} {xTrain : Features D} {yTrain : LabelVec} {xTest : Ω → Features D}
    {yTest : Ω → LabelVec} {methods : List (Str × Classif.Estimator D)} {losses : List (Str × Metric)}
    {curves : List (Str × CurveF ℝ)} {refMethod : Str} {floor : Flt ℝ} {pairwise : Bool} {methodEB : EBMethod}
    {limits : List (Str × (Flt ℝ × Flt ℝ))} {cd : Ω → BootDraws} {ld : Ω → Str → Str → Draws}
    (hn : (methods.map fun m => m.1).Nodup) (hk : (losses.map fun m => m.1).Nodup) (hc : (curves.map (·.1)).Nodup)
    {name : Str} (hname : (name, rocCurve) ∈ curves) (hloss : name ∉ losses.map fun m => m.1) {row : Str → S → List (Flt ℝ)}
    (hd : DrawnCases P pos neg lab draw)
    (ht : ∀ ω, TestSet xTrain yTrain (xTest ω) (yTest ω) 2 methods floor (fun i => if lab i then 1 else 0) fun m i => row m (draw i ω))
    (h1 : 0 < numLab lab true) (h0 : 0 < numLab lab false)
    (hg : ∀ m ∈ methods, Measurable fun s => (predicted floor (row m.1 s)).getD 1 0) {θ : Str → ℝ}
    (hθ : ∀ m ∈ methods, θ m.1 = rankProb pos neg fun s => (predicted floor (row m.1 s)).getD 1 0) {N : ℝ}
    (hN : N = (min (numLab lab true) (numLab lab false) : ℕ)) :
    ∃ auc : Str → Ω → ℝ, (∀ m ∈ methods, ∀ ω cell, Shows (Classif.justBenchmark T other xTrain yTrain (xTest ω) (yTest ω) 2 methods losses curves refMethod
        floor pairwise methodEB limits (cd ω) (ld ω)) name m.1 cell → cell.1 = .fin (auc m.1 ω)) ∧
      (∀ m ∈ methods, ∀ ε ≥ 0, P.real {ω | ε ≤ |auc m.1 ω - θ m.1|} ≤ 2 * Real.exp (-(2 * N * ε ^ 2))) ∧
      (∀ δ : ℝ, 0 < δ → δ ≤ 1 → P.real {ω | ∃ m ∈ methods, √(Real.log (2 * methods.length / δ) / (2 * N)) ≤ |auc m.1 ω - θ m.1|} ≤ δ) ∧
      (∀ m ∈ methods, ∀ m' ∈ methods, ∀ ε ≥ 0, P.real {ω | ε ≤ |auc m.1 ω - auc m'.1 ω - (θ m.1 - θ m'.1)|} ≤ 2 * Real.exp (-(N * ε ^ 2 / 2))) ∧
      (∀ m ∈ methods, ∀ m' ∈ methods, θ m'.1 ≤ θ m.1 → P.real {ω | auc m.1 ω ≤ auc m'.1 ω} ≤ Real.exp (-(N * (θ m.1 - θ m'.1) ^ 2 / 2))) := by
  have hN0 : 0 < N := by rw [hN]; exact_mod_cast lt_min h1 h0
  have A : ∀ m ∈ methods, ∀ ε ≥ 0, P.real {ω | ε ≤ |rankShare lab (fun i => (predicted floor (row m.1 (draw i ω))).getD 1 0) - θ m.1|} ≤
      2 * Real.exp (-(2 * N * ε ^ 2)) := by
    intro m hm ε hε
    rw [hθ m hm, hN]
    exact two_tails (rankShare_tail hd h1 h0 (hg m hm) hε).1 (rankShare_tail hd h1 h0 (hg m hm) hε).2
  refine ⟨fun m ω => rankShare lab fun i => (predicted floor (row m (draw i ω))).getD 1 0, ?_, A, fun δ hδ0 hδ1 => ?_, fun m hm m' hm' ε hε => ?_,
    fun m hm m' hm' hle => ?_⟩
  · rintro m hm ω cell ⟨full, dump, hf, hcell⟩
    exact bench_auc hn hk hc hname hloss (ht ω) h1 h0 hf (List.mem_map.2 ⟨m, hm, rfl⟩) hcell
  · rcases Nat.eq_zero_or_pos methods.length with h | h
    · rw [List.length_eq_zero_iff] at h
      subst h
      simpa using hδ0.le
    have hk0 : (0 : ℝ) < methods.length := by exact_mod_cast h
    have hk1 : (1 : ℝ) ≤ methods.length := by exact_mod_cast h
    have hq : 1 ≤ 2 * (methods.length : ℝ) / δ := by
      rw [le_div_iff₀ hδ0]
      linarith
    set ε := √(Real.log (2 * methods.length / δ) / (2 * N)) with hεd
    have hε2 : 2 * N * ε ^ 2 = Real.log (2 * methods.length / δ) := by
      rw [hεd, Real.sq_sqrt (div_nonneg (Real.log_nonneg hq) (by positivity))]
      field_simp
    have hB : 2 * Real.exp (-(2 * N * ε ^ 2)) = δ / methods.length := by
      rw [hε2, Real.exp_neg, Real.exp_log (by linarith)]
      field_simp
    have hU : ∀ l : List (Str × Classif.Estimator D), (∀ m ∈ l, m ∈ methods) →
        P.real {ω | ∃ m ∈ l, ε ≤ |rankShare lab (fun i => (predicted floor (row m.1 (draw i ω))).getD 1 0) - θ m.1|} ≤ l.length * (δ / methods.length) := by
      intro l hl
      induction l with
      | nil => simp
      | cons a l ih =>
        have hsub : {ω | ∃ m ∈ a :: l, ε ≤ |rankShare lab (fun i => (predicted floor (row m.1 (draw i ω))).getD 1 0) - θ m.1|} =
            {ω | ε ≤ |rankShare lab (fun i => (predicted floor (row a.1 (draw i ω))).getD 1 0) - θ a.1|} ∪
            {ω | ∃ m ∈ l, ε ≤ |rankShare lab (fun i => (predicted floor (row m.1 (draw i ω))).getD 1 0) - θ m.1|} := by
          ext ω
          simp
        rw [hsub]
        refine (measureReal_union_le _ _).trans ?_
        have h2 := A a (hl a (by simp)) ε (Real.sqrt_nonneg _)
        rw [hB] at h2
        have h3 := ih fun m hm => hl m (by simp [hm])
        rw [List.length_cons]
        push_cast
        linarith
    refine (hU methods fun m hm => hm).trans (le_of_eq ?_)
    field_simp
  · rw [hθ m hm, hθ m' hm', hN]
    exact two_tails (rankShare_diff_tail hd h1 h0 (hg m hm) (hg m' hm') hε).1 (rankShare_diff_tail hd h1 h0 (hg m hm) (hg m' hm') hε).2
  · have := (rankShare_diff_tail hd h1 h0 (hg m hm) (hg m' hm') (ε := θ m.1 - θ m'.1) (by linarith)).2
    rw [← hθ m hm, ← hθ m' hm', ← hN] at this
    refine (measureReal_mono fun ω hω => ?_).trans this
    have hω' : rankShare lab (fun i => (predicted floor (row m.1 (draw i ω))).getD 1 0) ≤
      rankShare lab (fun i => (predicted floor (row m'.1 (draw i ω))).getD 1 0) := hω
    change θ m.1 - θ m'.1 ≤ θ m.1 - θ m'.1 - (rankShare lab _ - rankShare lab _)
    linarith

end

/-! ### Examples -/

/-- 1000 positive and 1000 negative cases. -/
def manyLab (i : Fin 2000) : Bool := decide (i.1 < 1000)

theorem manyLab_num : numLab manyLab true = 1000 ∧ numLab manyLab false = 1000 := by decide +kernel

/-- One curve: scores that rank 5/8 of the pairs correctly get an AUC above 0.675 with probability at most `exp(-5)`. -/
example : ∃ auc : (Fin 2000 → Bool) → ℝ, (∀ ω A, AreaOf rocCurve (List.ofFn manyLab) (finVec (List.ofFn fun i => if ω i then (1 : ℝ) else 0)) none A ↔
      A = [.fin (auc ω)]) ∧
    (Measure.pi (caseLaw manyLab)).real {ω | 27 / 40 ≤ auc ω} ≤ Real.exp (-5) := by
  obtain ⟨auc, h1, h2⟩ := C147_auc (cases_drawn manyLab) (by rw [manyLab_num.1]; norm_num) (by rw [manyLab_num.2]; norm_num)
    (g := fun b => if b then (1 : ℝ) else 0) .of_discrete
  refine ⟨auc, h1, ?_⟩
  have := (h2 (1 / 20) (by norm_num)).1
  rw [manyLab_num.1, manyLab_num.2, loaded_rank (by simp)] at this
  norm_num at this
  exact this

/-- The benchmark of `look`, which ranks 5/8 of the pairs correctly, and `blind`, which ranks 1/2: `look` fails to get the higher AUC with probability at most
`exp(-125/16)`, less than one in two thousand, and both AUCs are within `√(log 80 / 2000)` of the truth, less than 0.05, with probability at least 0.95. -/
example (other : Interp ℝ) (ld : Str → Str → Draws) (cd : BootDraws) :
    ∃ auc : Str → (Fin 2000 → Bool) → ℝ, (∀ m ∈ lookMethods, ∀ ω cell, Shows (Classif.justBenchmark studentT other coinTrainX ⟨'i', [1]⟩ (coinTestX ω)
      (labY manyLab) 2 lookMethods stdClassLoss stdBinaryCurves "blind".toList .ninf false .t [] cd ld) "AUC".toList m.1 cell → cell.1 = .fin (auc m.1 ω)) ∧
    (Measure.pi (caseLaw manyLab)).real {ω | auc "look".toList ω ≤ auc "blind".toList ω} ≤ Real.exp (-(125 / 16)) ∧
    (Measure.pi (caseLaw manyLab)).real {ω | ∃ m ∈ lookMethods, √(Real.log 80 / 2000) ≤
      |auc m.1 ω - rankProb loadedCoin fairCoin fun s => (predicted .ninf (lookRow m.1 s)).getD 1 0|} ≤ 1 / 20 := by
  obtain ⟨auc, h1, -, h3, -, h5⟩ := C147_benchmark (P := Measure.pi (caseLaw manyLab)) (T := studentT) (other := other) (xTrain := coinTrainX)
    (yTrain := ⟨'i', [1]⟩) (methods := lookMethods)
    (losses := stdClassLoss) (curves := stdBinaryCurves) (refMethod := "blind".toList) (floor := .ninf) (pairwise := false) (methodEB := .t) (limits := [])
    (cd := fun _ => cd) (ld := fun _ => ld) (by change ["look".toList, "blind".toList].Nodup; decide) (by decide) (by decide) (name := "AUC".toList)
    (by simp [stdBinaryCurves]) (by decide) (row := lookRow) (cases_drawn manyLab) (fun ω => look_testSet manyLab ω)
    (by rw [manyLab_num.1]; norm_num) (by rw [manyLab_num.2]; norm_num) (fun _ _ => .of_discrete)
    (θ := fun m => rankProb loadedCoin fairCoin fun s => (predicted .ninf (lookRow m s)).getD 1 0) (fun _ _ => rfl) rfl
  rw [manyLab_num.1, manyLab_num.2] at h3 h5
  refine ⟨auc, h1, ?_, ?_⟩
  · have e1 : rankProb loadedCoin fairCoin (fun s => (predicted .ninf (lookRow "look".toList s)).getD 1 0) = 5 / 8 := loaded_rank (by
      rw [look_predicted.1, look_predicted.2.1]
      norm_num)
    have e2 : rankProb loadedCoin fairCoin (fun s => (predicted .ninf (lookRow "blind".toList s)).getD 1 0) = 1 / 2 := by
      refine (C142_meaning .of_discrete).2.1 ?_
      simp only [look_predicted.2.2, Measure.map_const, measure_univ]
    have := h5 ("look".toList, lookEst "look".toList) (by simp [lookMethods]) ("blind".toList, lookEst "blind".toList) (by simp [lookMethods]) (by
      dsimp only
      rw [e1, e2]
      norm_num)
    dsimp only at this
    rw [e1, e2] at this
    norm_num at this
    exact this
  · have := h3 (1 / 20) (by norm_num) (by norm_num)
    have el : lookMethods.length = 2 := rfl
    rw [el] at this
    norm_num at this
    simpa using this

end Mlp.Props
