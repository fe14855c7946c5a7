import Verif.Props.BenchCover
import Verif.Props.RegrRisk

/-! # C141: what just_benchmark promises about new data -/

namespace Mlp.Props
open Mlp Mlp.Util Mlp.Spec Mlp.Classif Mlp.Lemmas Mlp.Frame Mlp.Boot Mlp.Perf Mlp.Paper MeasureTheory ProbabilityTheory Filter Topology
open Mlp.Regr (Arr)

variable {Ω S D : Type} [MeasurableSpace Ω] [MeasurableSpace S] {P : Measure Ω} {μ : Measure S} [IsProbabilityMeasure P] [IsProbabilityMeasure μ]

/-! ### Classification -/

/-- What the theorems below assume of the arguments of a classification benchmark: the names of the methods and losses are distinct, the
loss `loss` scores each sample on its own with `f`, its name is not that of a curve, its limits are `lower` and `upper`, and the
losses of the method and the reference on every point `s` of the population are measurable and within these limits. -/
structure ClassSetup (nLabels : ℕ) (methods : List (Str × Classif.Estimator D)) (losses : List (Str × Metric)) (curves : List (Str × CurveF ℝ))
    (refMethod : Str) (floor : Flt ℝ) (limits : List (Str × (Flt ℝ × Flt ℝ))) (lab : S → ℕ) (row : Str → S → List (Flt ℝ))
    (loss : Str × Metric) (f : List ℝ → ℕ → ℝ) (method : Str) (lower upper : Flt ℝ) : Prop where
  names : (methods.map fun m => m.1).Nodup
  lossNames : (losses.map fun m => m.1).Nodup
  mem : loss ∈ losses
  scores : Scores nLabels loss.2 f
  notCurve : loss.1 ∉ curves.map (·.1)
  known : method ∈ methods.map fun m => m.1
  refKnown : refMethod ∈ methods.map fun m => m.1
  limits : LimitsOf limits loss.1 lower upper
  valid : ValidLimits lower upper
  meas : ∀ m, m = method ∨ m = refMethod → Measurable fun s => f (predicted floor (row m s)) (lab s)
  bound : ∀ m, m = method ∨ m = refMethod → ∀ s, lower ≤ .fin (f (predicted floor (row m s)) (lab s)) ∧
    .fin (f (predicted floor (row m s)) (lab s)) ≤ upper

section
variable {T : Nat → RefDist} {other : Interp ℝ} {xTrain : Features D} {yTrain : LabelVec} {nLabels : Nat}
  {methods : List (Str × Classif.Estimator D)} {losses : List (Str × Metric)} {curves : List (Str × CurveF ℝ)} {refMethod : Str}
  {floor : Flt ℝ} {pairwise : Bool} {M : EBMethod} {limits : List (Str × (Flt ℝ × Flt ℝ))}
  {lab : S → ℕ} {row : Str → S → List (Flt ℝ)} {loss : Str × Metric} {f : List ℝ → ℕ → ℝ} {method : Str} {lower upper : Flt ℝ}

omit [MeasurableSpace Ω] in
theorem ClassSetup.measured (hs : ClassSetup nLabels methods losses curves refMethod floor limits lab row loss f method lower upper)
    {n : ℕ} {s : Fin n → S} {xTest : Features D} {yTest : LabelVec} {cd : BootDraws} {ld : Str → Str → Draws} {full : FullTable} {dump : CurveDump ℝ}
    (ht : TestSet xTrain yTrain xTest yTest nLabels methods floor (fun i => lab (s i)) (fun m i => row m (s i)))
    (h : Classif.justBenchmark T other xTrain yTrain xTest yTest nLabels methods losses curves refMethod floor pairwise
      M limits cd ld = .ok (full, dump)) :
    Measured T refMethod pairwise M limits ld loss.1 method full (fun i => f (predicted floor (row method (s i))) (lab (s i)))
      (fun i => f (predicted floor (row refMethod (s i))) (lab (s i))) := by
  obtain ⟨h1, tbl, out, h2, h3, h4, -⟩ := bench_losses hs.names hs.lossNames ht h
  obtain ⟨m, hm, rfl⟩ := List.mem_map.1 hs.known
  obtain ⟨m', hm', e⟩ := List.mem_map.1 hs.refKnown
  refine ⟨h1, tbl, out, h2, h3 _ hs.mem f hs.scores m hm, ?_, fun m cell hc => h4 _ m cell hs.notCurve hc⟩
  have := h3 _ hs.mem f hs.scores m' hm'
  rw [e] at this
  exact this

section
variable {n : ℕ} {draw : Fin n → Ω → S} {xTest : Ω → Features D} {yTest : Ω → LabelVec} {cd : Ω → BootDraws} {ld : Ω → Str → Str → Draws} {l u : ℝ}

/-- **C141, error bars.**  The test points are independent draws from a population, and each trained method predicts each of them on its
own.  With `method_EB='bernstein'` and limits that the losses respect, for any number of test points the benchmark keeps the promise of its 95%
error bar: the mean and error bar it shows contain the risk, the expected loss of the trained method on a new point of the
population, with probability at least 95%. -/
theorem C141_error_bar (hs : ClassSetup nLabels methods losses curves refMethod floor limits lab row loss f method (.fin l) (.fin u))
    (hd : Drawn P μ draw)
    (ht : ∀ ω, TestSet xTrain yTrain (xTest ω) (yTest ω) nLabels methods floor (fun i => lab (draw i ω)) (fun m i => row m (draw i ω))) :
    Likely P (95 / 100) {ω | ∀ cell, Shows (Classif.justBenchmark T other xTrain yTrain (xTest ω) (yTest ω) nLabels methods losses curves
      refMethod floor false .bernstein limits (cd ω) (ld ω)) loss.1 method cell → BarHolds cell (risk μ f floor lab (row method))} := by
  refine (cover_bar (r := fun s => f (predicted floor (row refMethod s)) (lab s)) (ld := ld) (rep := fun ω full => ∃ dump, Classif.justBenchmark T other xTrain yTrain (xTest ω) (yTest ω) nLabels methods losses curves
      refMethod floor false .bernstein limits (cd ω) (ld ω) = .ok (full, dump)) hd (hs.meas _ (.inl rfl)) (by simpa [ValidLimits] using hs.valid)
    (by simpa using hs.bound _ (.inl rfl)) hs.limits (fun ω full ⟨dump, h⟩ => hs.measured (ht ω) h)).mono ?_
  rintro ω h cell ⟨full, dump, h1, h2⟩
  exact h full cell ⟨dump, h1⟩ h2

/-- **C141, pairwise error bars.**  With `pairwise_CI` the difference between the means of a method and the reference, and the error bar of the
method, contain the difference between the risks with probability at least 95%. -/
theorem C141_pairwise (hs : ClassSetup nLabels methods losses curves refMethod floor limits lab row loss f method (.fin l) (.fin u))
    (hne : method ≠ refMethod) (hd : Drawn P μ draw)
    (ht : ∀ ω, TestSet xTrain yTrain (xTest ω) (yTest ω) nLabels methods floor (fun i => lab (draw i ω)) (fun m i => row m (draw i ω))) :
    Likely P (95 / 100) {ω | ∀ full dump, Classif.justBenchmark T other xTrain yTrain (xTest ω) (yTest ω) nLabels methods losses curves
      refMethod floor true .bernstein limits (cd ω) (ld ω) = .ok (full, dump) → ∀ cell cellRef, FullCell full loss.1 method cell →
      FullCell full loss.1 refMethod cellRef →
      PairHolds cell cellRef (risk μ f floor lab (row method) - risk μ f floor lab (row refMethod))} := by
  refine (cover_pair (ld := ld) (rep := fun ω full => ∃ dump, Classif.justBenchmark T other xTrain yTrain (xTest ω) (yTest ω) nLabels methods losses curves
      refMethod floor true .bernstein limits (cd ω) (ld ω) = .ok (full, dump)) hd (hs.meas _ (.inl rfl)) (hs.meas _ (.inr rfl)) (by simpa [ValidLimits] using hs.valid)
    (by simpa using hs.bound _ (.inl rfl)) (by simpa using hs.bound _ (.inr rfl)) hs.limits hne
    (fun ω full ⟨dump, h⟩ => hs.measured (ht ω) h)).mono ?_
  intro ω h full dump h1 cell cellRef h2 h3
  exact h full cell cellRef ⟨dump, h1⟩ h2 h3

/-- **C141, p-values.**  If a method has the same risk as the reference, its p-value is at most `α` with probability at most `α`, with and
without `pairwise_CI`. -/
theorem C141_p_value (hs : ClassSetup nLabels methods losses curves refMethod floor limits lab row loss f method (.fin l) (.fin u))
    (hne : method ≠ refMethod) (hd : Drawn P μ draw)
    (ht : ∀ ω, TestSet xTrain yTrain (xTest ω) (yTest ω) nLabels methods floor (fun i => lab (draw i ω)) (fun m i => row m (draw i ω)))
    (heq : risk μ f floor lab (row method) = risk μ f floor lab (row refMethod)) {α : ℝ} (hα : 0 ≤ α) :
    P.real {ω | ∃ cell, Shows (Classif.justBenchmark T other xTrain yTrain (xTest ω) (yTest ω) nLabels methods losses curves
      refMethod floor pairwise .bernstein limits (cd ω) (ld ω)) loss.1 method cell ∧ Flagged cell α} ≤ α := by
  refine (measureReal_mono ?_).trans (cover_test (ld := ld) (rep := fun ω full => ∃ dump, Classif.justBenchmark T other xTrain yTrain (xTest ω) (yTest ω) nLabels methods losses curves
      refMethod floor pairwise .bernstein limits (cd ω) (ld ω) = .ok (full, dump)) hd (hs.meas _ (.inl rfl)) (hs.meas _ (.inr rfl)) (by simpa [ValidLimits] using hs.valid)
    (by simpa using hs.bound _ (.inl rfl)) (by simpa using hs.bound _ (.inr rfl)) hs.limits hne
    (fun ω full ⟨dump, h⟩ => hs.measured (ht ω) h) heq hα)
  rintro ω ⟨cell, ⟨full, dump, h1, h2⟩, h3⟩
  exact ⟨full, cell, ⟨dump, h1⟩, h2, h3⟩

end

section
variable {draw : ℕ → Ω → S} {xTest : ℕ → Ω → Features D} {yTest : ℕ → Ω → LabelVec} {cd : ℕ → Ω → BootDraws} {ld : ℕ → Ω → Str → Str → Draws}

/-- **C141, error bars of the default method.**  With `method_EB='t'` and losses with finite variance that are not constant, the promise is kept up to any `δ` by
large test sets: from some number of test points on the error bar contains the risk with probability at least 95% minus `δ`. -/
theorem C141_error_bar_t (hs : ClassSetup nLabels methods losses curves refMethod floor limits lab row loss f method lower upper)
    (hd : Drawn P μ draw)
    (ht : ∀ n ω, TestSet xTrain yTrain (xTest n ω) (yTest n ω) nLabels methods floor (fun i : Fin n => lab (draw i ω)) (fun m i => row m (draw i ω)))
    (h2 : Integrable (fun s => f (predicted floor (row method s)) (lab s) ^ 2) μ)
    (hv : ∫ s, (f (predicted floor (row method s)) (lab s) - risk μ f floor lab (row method)) ^ 2 ∂μ ≠ 0) {δ : ℝ} (hδ : 0 < δ) :
    ∀ᶠ n in atTop, Likely P (95 / 100 - δ) {ω | ∀ cell, Shows (Classif.justBenchmark studentT other xTrain yTrain (xTest n ω) (yTest n ω) nLabels methods
      losses curves refMethod floor false .t limits (cd n ω) (ld n ω)) loss.1 method cell → BarHolds cell (risk μ f floor lab (row method))} := by
  filter_upwards [grow_bar (r := fun s => f (predicted floor (row refMethod s)) (lab s)) (ld := ld) (rep := fun n ω full => ∃ dump, Classif.justBenchmark studentT other xTrain yTrain (xTest n ω) (yTest n ω) nLabels methods
      losses curves refMethod floor false .t limits (cd n ω) (ld n ω) = .ok (full, dump)) (drawn_stream hd (hs.meas _ (.inl rfl)) h2 rfl hv) hs.valid
      (hs.bound _ (.inl rfl)) hs.limits (fun n ω full ⟨dump, h⟩ => hs.measured (ht n ω) h) hδ] with n hn
  refine hn.mono ?_
  rintro ω h cell ⟨full, dump, h1, h2⟩
  exact h full cell ⟨dump, h1⟩ h2

/-- **C141, pairwise error bars of the default method.** -/
theorem C141_pairwise_t (hs : ClassSetup nLabels methods losses curves refMethod floor limits lab row loss f method lower upper)
    (hne : method ≠ refMethod) (hd : Drawn P μ draw)
    (ht : ∀ n ω, TestSet xTrain yTrain (xTest n ω) (yTest n ω) nLabels methods floor (fun i : Fin n => lab (draw i ω)) (fun m i => row m (draw i ω)))
    (h2 : ∀ m, m = method ∨ m = refMethod → Integrable (fun s => f (predicted floor (row m s)) (lab s) ^ 2) μ)
    (hv : ∫ s, (f (predicted floor (row method s)) (lab s) - f (predicted floor (row refMethod s)) (lab s) -
      (risk μ f floor lab (row method) - risk μ f floor lab (row refMethod))) ^ 2 ∂μ ≠ 0) {δ : ℝ} (hδ : 0 < δ) :
    ∀ᶠ n in atTop, Likely P (95 / 100 - δ) {ω | ∀ full dump, Classif.justBenchmark studentT other xTrain yTrain (xTest n ω) (yTest n ω) nLabels methods
      losses curves refMethod floor true .t limits (cd n ω) (ld n ω) = .ok (full, dump) → ∀ cell cellRef, FullCell full loss.1 method cell →
      FullCell full loss.1 refMethod cellRef →
      PairHolds cell cellRef (risk μ f floor lab (row method) - risk μ f floor lab (row refMethod))} := by
  filter_upwards [grow_pair (ld := ld) (rep := fun n ω full => ∃ dump, Classif.justBenchmark studentT other xTrain yTrain (xTest n ω) (yTest n ω) nLabels methods
      losses curves refMethod floor true .t limits (cd n ω) (ld n ω) = .ok (full, dump))
      (drawn_diff_stream hd (hs.meas _ (.inl rfl)) (hs.meas _ (.inr rfl)) (h2 _ (.inl rfl)) (h2 _ (.inr rfl)) hv) hs.valid
      (hs.bound _ (.inl rfl)) (hs.bound _ (.inr rfl)) hs.limits hne (fun n ω full ⟨dump, h⟩ => hs.measured (ht n ω) h) hδ] with n hn
  refine hn.mono ?_
  intro ω h full dump h1 cell cellRef h2 h3
  exact h full cell cellRef ⟨dump, h1⟩ h2 h3

/-- **C141, p-values of the default method.**  For large test sets a method with the same risk as the reference is flagged at level `α` with
probability at most `α` plus `δ`. -/
theorem C141_p_value_t (hs : ClassSetup nLabels methods losses curves refMethod floor limits lab row loss f method lower upper)
    (hne : method ≠ refMethod) (hd : Drawn P μ draw)
    (ht : ∀ n ω, TestSet xTrain yTrain (xTest n ω) (yTest n ω) nLabels methods floor (fun i : Fin n => lab (draw i ω)) (fun m i => row m (draw i ω)))
    (h2 : ∀ m, m = method ∨ m = refMethod → Integrable (fun s => f (predicted floor (row m s)) (lab s) ^ 2) μ)
    (hv : ∫ s, (f (predicted floor (row method s)) (lab s) - f (predicted floor (row refMethod s)) (lab s)) ^ 2 ∂μ ≠ 0)
    (heq : risk μ f floor lab (row method) = risk μ f floor lab (row refMethod)) {α δ : ℝ} (h0 : 0 ≤ α) (h1 : α ≤ 1) (hδ : 0 < δ) :
    ∀ᶠ n in atTop, P.real {ω | ∃ cell, Shows (Classif.justBenchmark studentT other xTrain yTrain (xTest n ω) (yTest n ω) nLabels methods
      losses curves refMethod floor pairwise .t limits (cd n ω) (ld n ω)) loss.1 method cell ∧ Flagged cell α} ≤ α + δ := by
  have hst := drawn_diff_stream hd (hs.meas _ (.inl rfl)) (hs.meas _ (.inr rfl)) (h2 _ (.inl rfl)) (h2 _ (.inr rfl))
    (by unfold risk at heq; rw [heq, sub_self]; simpa using hv)
  unfold risk at heq
  rw [heq, sub_self] at hst
  filter_upwards [grow_test (draw := draw) (g := fun s => f (predicted floor (row method s)) (lab s)) (r := fun s => f (predicted floor (row refMethod s)) (lab s)) (ld := ld) (rep := fun n ω full => ∃ dump, Classif.justBenchmark studentT other xTrain yTrain (xTest n ω) (yTest n ω) nLabels methods
      losses curves refMethod floor pairwise .t limits (cd n ω) (ld n ω) = .ok (full, dump)) hst hs.limits hne
      (fun n ω full ⟨dump, h⟩ => hs.measured (ht n ω) h) h0 h1 hδ] with n hn
  refine (measureReal_mono ?_).trans hn
  rintro ω ⟨cell, ⟨full, dump, h1, h2⟩, h3⟩
  exact ⟨full, cell, ⟨dump, h1⟩, h2, h3⟩

/-- **C141, growing test sets.**  With `'t'`, or with `'bernstein'` and finite limits, almost surely the mean converges to the risk and the error bar to 0;
and if the risk differs from that of the reference the p-value converges to 0, so the difference is found. -/
theorem C141_limit (hs : ClassSetup nLabels methods losses curves refMethod floor limits lab row loss f method lower upper)
    (hM : Shrinking M lower upper) (hne : method ≠ refMethod) (hd : Drawn P μ draw)
    (ht : ∀ n ω, TestSet xTrain yTrain (xTest n ω) (yTest n ω) nLabels methods floor (fun i : Fin n => lab (draw i ω)) (fun m i => row m (draw i ω)))
    (h2 : ∀ m, m = method ∨ m = refMethod → Integrable (fun s => f (predicted floor (row m s)) (lab s) ^ 2) μ)
    (hv : ∫ s, (f (predicted floor (row method s)) (lab s) - risk μ f floor lab (row method)) ^ 2 ∂μ ≠ 0)
    (hw : ∫ s, (f (predicted floor (row method s)) (lab s) - f (predicted floor (row refMethod s)) (lab s) -
      (risk μ f floor lab (row method) - risk μ f floor lab (row refMethod))) ^ 2 ∂μ ≠ 0) :
    ∀ᵐ ω ∂P, ∀ ε > 0, ∀ᶠ n in atTop, ∀ cell, Shows (Classif.justBenchmark studentT other xTrain yTrain (xTest n ω) (yTest n ω) nLabels methods
      losses curves refMethod floor pairwise M limits (cd n ω) (ld n ω)) loss.1 method cell →
      (∃ mu e : ℝ, cell.1 = .fin mu ∧ |mu - risk μ f floor lab (row method)| < ε ∧ cell.2.1 = .fin e ∧ 0 ≤ e ∧ e < ε) ∧
      (risk μ f floor lab (row method) ≠ risk μ f floor lab (row refMethod) → Flagged cell ε) := by
  filter_upwards [grow_limit (ld := ld) (rep := fun n ω full => ∃ dump, Classif.justBenchmark studentT other xTrain yTrain (xTest n ω) (yTest n ω) nLabels methods
      losses curves refMethod floor pairwise M limits (cd n ω) (ld n ω) = .ok (full, dump)) (drawn_stream hd (hs.meas _ (.inl rfl)) (h2 _ (.inl rfl)) rfl hv)
      (drawn_diff_stream hd (hs.meas _ (.inl rfl)) (hs.meas _ (.inr rfl)) (h2 _ (.inl rfl)) (h2 _ (.inr rfl)) hw) hs.valid
      (hs.bound _ (.inl rfl)) (hs.bound _ (.inr rfl)) hs.limits hne hM (fun n ω full ⟨dump, h⟩ => hs.measured (ht n ω) h)] with ω hω ε hε
  filter_upwards [hω ε hε] with n hn
  rintro cell ⟨full, dump, h1, h2⟩
  obtain ⟨a, b⟩ := hn full cell ⟨dump, h1⟩ h2
  refine ⟨a, fun hne' => ?_⟩
  obtain ⟨p, hp, -, hlt⟩ := b (sub_ne_zero.2 hne')
  exact ⟨p, hp, hlt.le⟩

end

omit [MeasurableSpace S] in
/-- **C141, success.**  The benchmark with two labels, the standard losses and curves, `'bernstein'` and limits that contain all losses
succeeds, so the promises above are about tables that are really shown. -/
theorem C141_success {n : ℕ} {s : Fin n → S} {xTest : Features D} {yTest : LabelVec} {cd : BootDraws} {ld : Str → Str → Draws}
    (hn : (methods.map fun m => m.1).Nodup) (href : refMethod ∈ (methods.map fun m => m.1))
    (hg : GoodData xTrain yTrain xTest 2 floor n) (hkind : yTrain.kind = yTest.kind)
    (ht : TestSet xTrain yTrain xTest yTest 2 methods floor (fun i => lab (s i)) (fun m i => row m (s i)))
    (hT : 2 ≤ n → IsSymmetric (T (n - 1))) (hcd : ∀ m c, (cd m c).length = 1000 ∧ ∀ row ∈ cd m c, row.length = n)
    (hlim : ∀ lf ∈ [("NLL".toList, nllAt), ("Brier".toList, brier2At), ("sphere".toList, sphere2At), ("zero_one".toList, zeroOne2At)],
      ∃ l u : ℝ, LimitsOf limits lf.1 (.fin l) (.fin u) ∧ l ≤ u ∧ ∀ m ∈ methods, ∀ i,
        l ≤ lf.2 (predicted floor (row m.1 (s i))) (lab (s i)) ∧ lf.2 (predicted floor (row m.1 (s i))) (lab (s i)) ≤ u) :
    ∀ method ∈ methods.map (fun m => m.1), ∀ l ∈ stdClassLoss, ∃ cell, Shows (Classif.justBenchmark T other xTrain yTrain xTest yTest 2 methods
      stdClassLoss stdBinaryCurves refMethod floor false .bernstein limits cd ld) l.1 method cell := by
  obtain ⟨⟨full0, dump⟩, h0⟩ := C91_class_standard (T := T) other (methodEB := .t) (cd := cd) (ld := ld) hn href hg hkind
    (by rw [ht.labels]; simp) (by
      intro v hv
      rw [ht.labels] at hv
      obtain ⟨i, rfl⟩ := List.mem_ofFn.1 hv
      have := ht.range i
      simp only [Nat.cast_eq_zero, Nat.cast_eq_one]
      omega) (fun m hm => ⟨_, ht.preds m hm, by simp, rfl, fun r hr => by
      obtain ⟨i, rfl⟩ := List.mem_ofFn.1 hr
      exact ⟨ht.width m hm i, ht.finite m hm i⟩⟩) hcd (by simp) hT (by simp)
  obtain ⟨h1, tbl, out0, -, h3, -, h5, h6, h7, h8⟩ := bench_losses hn (by decide) ht h0
  have hmets : ∀ metric ∈ tbl.metrics, ∃ lf ∈ [("NLL".toList, nllAt), ("Brier".toList, brier2At), ("sphere".toList, sphere2At),
      ("zero_one".toList, zeroOne2At)], lf.1 = metric ∧ ∃ l ∈ stdClassLoss, l.1 = metric ∧ Scores 2 l.2 lf.2 := by
    intro metric hm
    have hm' := h6.mem_iff.1 hm
    simp only [stdClassLoss, List.map_cons, List.map_nil, List.mem_cons, List.not_mem_nil, or_false] at hm'
    rcases hm' with rfl | rfl | rfl | rfl
    · exact ⟨_, List.mem_cons_self .., rfl, ("NLL".toList, logLoss), by simp [stdClassLoss], rfl, scores_nll 2⟩
    · exact ⟨("Brier".toList, brier2At), by simp, rfl, ("Brier".toList, brierLoss true), by simp [stdClassLoss], rfl, scores_brier⟩
    · exact ⟨("sphere".toList, sphere2At), by simp, rfl, ("sphere".toList, sphericalLoss true), by simp [stdClassLoss], rfl, scores_sphere⟩
    · exact ⟨("zero_one".toList, zeroOne2At), by simp, rfl, ("zero_one".toList, hardLoss none), by simp [stdClassLoss], rfl, scores_zero_one⟩
  obtain ⟨out, hout⟩ := C52_success T (tbl := tbl) (refMethod := refMethod) false (c := 95 / 100) (by norm_num) (by norm_num)
    (methodEB := .bernstein) (by simp) (limits := limits) (draws := ld) (by rw [h5]; exact hT) (by simp) (h7.mem_iff.2 href)
    (by rw [h5]; exact h1) (by
      intro e
      rw [e] at h6
      have := h6.length_eq
      simp [stdClassLoss] at this) (by
      intro metric hmet
      obtain ⟨lf, hlf, rfl, l, hl, e, hsc⟩ := hmets metric hmet
      obtain ⟨a, b, hab, hle, hin⟩ := hlim lf hlf
      refine ⟨.fin a, .fin b, hab, by simp [ValidLimits, hle], fun method hmm => ?_⟩
      obtain ⟨m, hm, rfl⟩ := List.mem_map.1 (h7.mem_iff.1 hmm)
      refine ⟨_, e ▸ h3 l hl _ hsc m hm, by simp [h5], ?_⟩
      intro x hx
      obtain ⟨i, rfl⟩ := List.mem_ofFn.1 hx
      simpa using hin m hm i)
  obtain ⟨full, hf, ⟨c1, f1⟩, f2, c2, f3⟩ := h8 T .bernstein limits ld out hout
  intro method hmeth l hl
  have hc := C51_cells hout
  obtain ⟨i, hi, hi'⟩ := List.getElem_of_mem (h6.mem_iff.2 (List.mem_map_of_mem (f := fun m => m.1) hl))
  obtain ⟨j, hj, hj'⟩ := List.getElem_of_mem (h7.mem_iff.2 hmeth)
  have hio : i < out.length := by rw [← hc.length_eq]; exact hi
  have hrow := (List.forall₂_iff_get.1 hc).2 i hi hio
  have hjo : j < out[i].length := by rw [List.get_eq_getElem, List.get_eq_getElem] at hrow; rw [← hrow.length_eq]; exact hj
  refine ⟨out[i][j], full, dump, hf, i, j, out[i], ?_, ?_, ?_, List.getElem?_eq_getElem hjo⟩
  · rw [f1, List.getElem?_append_left hi, List.getElem?_eq_getElem hi, hi']
  · rw [f2, List.getElem?_eq_getElem hj, hj']
  · rw [f3, List.getElem?_append_left hio, List.getElem?_eq_getElem hio]

end
end Mlp.Props
