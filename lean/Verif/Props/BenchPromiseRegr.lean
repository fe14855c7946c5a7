import Verif.Props.BenchCover
import Verif.Props.RegrRisk

/-! # C141: what just_benchmark promises about new data, for regression -/

namespace Mlp.Props
open Mlp Mlp.Util Mlp.Spec Mlp.Classif Mlp.Lemmas Mlp.Frame Mlp.Boot Mlp.Perf Mlp.Paper MeasureTheory ProbabilityTheory Filter Topology
open Mlp.Regr (Arr stdRegrLoss)

variable {Ω S D : Type} [MeasurableSpace Ω] [MeasurableSpace S] {P : Measure Ω} {μ : Measure S} [IsProbabilityMeasure P] [IsProbabilityMeasure μ]

/-! ### Regression -/

/-- What the theorems below assume of the arguments of a regression benchmark: the names of the methods and losses are distinct, the
loss `loss` scores each sample on its own with `f`, its limits are `lower` and `upper`, and the
losses of the method and the reference on every point `s` of the population are measurable and within these limits. -/
structure RegrSetup (methods : List (Str × Regr.Estimator D)) (losses : List (Str × Regr.Loss))
    (refMethod : Str) (c : ℝ) (limits : List (Str × (Flt ℝ × Flt ℝ))) (target : S → ℝ) (mean std : Str → S → ℝ)
    (loss : Str × Regr.Loss) (f : ℝ → ℝ → ℝ → ℝ) (method : Str) (lower upper : Flt ℝ) : Prop where
  names : (methods.map fun m => m.1).Nodup
  lossNames : (losses.map fun m => m.1).Nodup
  mem : loss ∈ losses
  scores : ScoresR loss.2 f
  known : method ∈ methods.map fun m => m.1
  refKnown : refMethod ∈ methods.map fun m => m.1
  limits : LimitsOf limits loss.1 lower upper
  valid : ValidLimits lower upper
  meas : ∀ m, m = method ∨ m = refMethod → Measurable fun s => f (target s) (mean m s) (max c (std m s))
  bound : ∀ m, m = method ∨ m = refMethod → ∀ s, lower ≤ .fin (f (target s) (mean m s) (max c (std m s))) ∧
    .fin (f (target s) (mean m s) (max c (std m s))) ≤ upper

section
variable {T : Nat → RefDist} {dt dt' : Str} {xTrain : Features D} {yTrain : Arr}
  {methods : List (Str × Regr.Estimator D)} {losses : List (Str × Regr.Loss)} {refMethod : Str}
  {c : ℝ} {pairwise : Bool} {M : EBMethod} {limits : List (Str × (Flt ℝ × Flt ℝ))}
  {target : S → ℝ} {mean std : Str → S → ℝ} {loss : Str × Regr.Loss} {f : ℝ → ℝ → ℝ → ℝ} {method : Str} {lower upper : Flt ℝ}

omit [MeasurableSpace Ω] in
theorem RegrSetup.measured (hs : RegrSetup methods losses refMethod c limits target mean std loss f method lower upper)
    {n : ℕ} {s : Fin n → S} {xTest : Features D} {yTest : Arr} {ld : Str → Str → Draws} {full : FullTable}
    (ht : RegrTestSet xTrain yTrain xTest yTest methods c (fun i => target (s i)) (fun m i => mean m (s i)) (fun m i => std m (s i)))
    (h : Regr.justBenchmark T dt dt' xTrain yTrain xTest yTest methods losses
      refMethod (.fin c) pairwise M limits ld = .ok full) :
    Measured T refMethod pairwise M limits ld loss.1 method full (fun i => f (target (s i)) (mean method (s i)) (max c (std method (s i))))
      (fun i => f (target (s i)) (mean refMethod (s i)) (max c (std refMethod (s i)))) := by
  obtain ⟨h1, tbl, out, h2, h3, h4, -⟩ := regr_losses hs.names hs.lossNames ht h
  obtain ⟨m, hm, rfl⟩ := List.mem_map.1 hs.known
  obtain ⟨m', hm', e⟩ := List.mem_map.1 hs.refKnown
  refine ⟨h1, tbl, out, h2, h3 _ hs.mem f hs.scores m hm, ?_, fun m cell hc => h4 _ m cell hc⟩
  have := h3 _ hs.mem f hs.scores m' hm'
  rw [e] at this
  exact this

section
variable {n : ℕ} {draw : Fin n → Ω → S} {xTest : Ω → Features D} {yTest : Ω → Arr} {ld : Ω → Str → Str → Draws} {l u : ℝ}

/-- **C141, regression, error bars.**  The test points are independent draws from a population, and each trained method predicts each of them on its
own.  With `method_EB='bernstein'` and limits that the losses respect, for any number of test points the benchmark keeps the promise of its 95%
error bar: the mean and error bar it shows contain the risk, the expected loss of the trained method on a new point of the
population, with probability at least 95%. -/
theorem C141_regr_error_bar (hs : RegrSetup methods losses refMethod c limits target mean std loss f method (.fin l) (.fin u))
    (hd : Drawn P μ draw)
    (ht : ∀ ω, RegrTestSet xTrain yTrain (xTest ω) (yTest ω) methods c (fun i => target (draw i ω)) (fun m i => mean m (draw i ω)) (fun m i => std m (draw i ω))) :
    Likely P (95 / 100) {ω | ∀ cell, ShowsR (Regr.justBenchmark T dt dt' xTrain yTrain (xTest ω) (yTest ω) methods losses
      refMethod (.fin c) false .bernstein limits (ld ω)) loss.1 method cell → BarHolds cell (regrRisk μ f c target (mean method) (std method))} := by
  refine (cover_bar (r := fun s => f (target s) (mean refMethod s) (max c (std refMethod s))) (ld := ld) (rep := fun ω full => Regr.justBenchmark T dt dt' xTrain yTrain (xTest ω) (yTest ω) methods losses
      refMethod (.fin c) false .bernstein limits (ld ω) = .ok full) hd (hs.meas _ (.inl rfl)) (by simpa [ValidLimits] using hs.valid)
    (by simpa using hs.bound _ (.inl rfl)) hs.limits (fun ω full h => hs.measured (ht ω) h)).mono ?_
  rintro ω h cell ⟨full, h1, h2⟩
  exact h full cell h1 h2

/-- **C141, regression, pairwise error bars.**  With `pairwise_CI` the difference between the means of a method and the reference, and the error bar of the
method, contain the difference between the risks with probability at least 95%. -/
theorem C141_regr_pairwise (hs : RegrSetup methods losses refMethod c limits target mean std loss f method (.fin l) (.fin u))
    (hne : method ≠ refMethod) (hd : Drawn P μ draw)
    (ht : ∀ ω, RegrTestSet xTrain yTrain (xTest ω) (yTest ω) methods c (fun i => target (draw i ω)) (fun m i => mean m (draw i ω)) (fun m i => std m (draw i ω))) :
    Likely P (95 / 100) {ω | ∀ full, Regr.justBenchmark T dt dt' xTrain yTrain (xTest ω) (yTest ω) methods losses
      refMethod (.fin c) true .bernstein limits (ld ω) = .ok full → ∀ cell cellRef, FullCell full loss.1 method cell →
      FullCell full loss.1 refMethod cellRef →
      PairHolds cell cellRef (regrRisk μ f c target (mean method) (std method) - regrRisk μ f c target (mean refMethod) (std refMethod))} := by
  refine (cover_pair (ld := ld) (rep := fun ω full => Regr.justBenchmark T dt dt' xTrain yTrain (xTest ω) (yTest ω) methods losses
      refMethod (.fin c) true .bernstein limits (ld ω) = .ok full) hd (hs.meas _ (.inl rfl)) (hs.meas _ (.inr rfl)) (by simpa [ValidLimits] using hs.valid)
    (by simpa using hs.bound _ (.inl rfl)) (by simpa using hs.bound _ (.inr rfl)) hs.limits hne
    (fun ω full h => hs.measured (ht ω) h)).mono ?_
  intro ω h full h1 cell cellRef h2 h3
  exact h full cell cellRef h1 h2 h3

/-- **C141, regression, p-values.**  If a method has the same risk as the reference, its p-value is at most `α` with probability at most `α`, with and
without `pairwise_CI`. -/
theorem C141_regr_p_value (hs : RegrSetup methods losses refMethod c limits target mean std loss f method (.fin l) (.fin u))
    (hne : method ≠ refMethod) (hd : Drawn P μ draw)
    (ht : ∀ ω, RegrTestSet xTrain yTrain (xTest ω) (yTest ω) methods c (fun i => target (draw i ω)) (fun m i => mean m (draw i ω)) (fun m i => std m (draw i ω)))
    (heq : regrRisk μ f c target (mean method) (std method) = regrRisk μ f c target (mean refMethod) (std refMethod)) {α : ℝ} (hα : 0 ≤ α) :
    P.real {ω | ∃ cell, ShowsR (Regr.justBenchmark T dt dt' xTrain yTrain (xTest ω) (yTest ω) methods losses
      refMethod (.fin c) pairwise .bernstein limits (ld ω)) loss.1 method cell ∧ Flagged cell α} ≤ α := by
  refine (measureReal_mono ?_).trans (cover_test (ld := ld) (rep := fun ω full => Regr.justBenchmark T dt dt' xTrain yTrain (xTest ω) (yTest ω) methods losses
      refMethod (.fin c) pairwise .bernstein limits (ld ω) = .ok full) hd (hs.meas _ (.inl rfl)) (hs.meas _ (.inr rfl)) (by simpa [ValidLimits] using hs.valid)
    (by simpa using hs.bound _ (.inl rfl)) (by simpa using hs.bound _ (.inr rfl)) hs.limits hne
    (fun ω full h => hs.measured (ht ω) h) heq hα)
  rintro ω ⟨cell, ⟨full, h1, h2⟩, h3⟩
  exact ⟨full, cell, h1, h2, h3⟩

end

section
variable {draw : ℕ → Ω → S} {xTest : ℕ → Ω → Features D} {yTest : ℕ → Ω → Arr} {ld : ℕ → Ω → Str → Str → Draws}

/-- **C141, regression, error bars of the default method.**  With `method_EB='t'` and losses with finite variance that are not constant, the promise is kept up to any `δ` by
large test sets: from some number of test points on the error bar contains the risk with probability at least 95% minus `δ`. -/
theorem C141_regr_error_bar_t (hs : RegrSetup methods losses refMethod c limits target mean std loss f method lower upper)
    (hd : Drawn P μ draw)
    (ht : ∀ n ω, RegrTestSet xTrain yTrain (xTest n ω) (yTest n ω) methods c (fun i : Fin n => target (draw i ω)) (fun m i => mean m (draw i ω)) (fun m i => std m (draw i ω)))
    (h2 : Integrable (fun s => f (target s) (mean method s) (max c (std method s)) ^ 2) μ)
    (hv : ∫ s, (f (target s) (mean method s) (max c (std method s)) - regrRisk μ f c target (mean method) (std method)) ^ 2 ∂μ ≠ 0) {δ : ℝ} (hδ : 0 < δ) :
    ∀ᶠ n in atTop, Likely P (95 / 100 - δ) {ω | ∀ cell, ShowsR (Regr.justBenchmark studentT dt dt' xTrain yTrain (xTest n ω) (yTest n ω) methods losses
      refMethod (.fin c) false .t limits (ld n ω)) loss.1 method cell → BarHolds cell (regrRisk μ f c target (mean method) (std method))} := by
  filter_upwards [grow_bar (r := fun s => f (target s) (mean refMethod s) (max c (std refMethod s))) (ld := ld) (rep := fun n ω full => Regr.justBenchmark studentT dt dt' xTrain yTrain (xTest n ω) (yTest n ω) methods losses
      refMethod (.fin c) false .t limits (ld n ω) = .ok full) (drawn_stream hd (hs.meas _ (.inl rfl)) h2 rfl hv) hs.valid
      (hs.bound _ (.inl rfl)) hs.limits (fun n ω full h => hs.measured (ht n ω) h) hδ] with n hn
  refine hn.mono ?_
  rintro ω h cell ⟨full, h1, h2⟩
  exact h full cell h1 h2

/-- **C141, regression, pairwise error bars of the default method.** -/
theorem C141_regr_pairwise_t (hs : RegrSetup methods losses refMethod c limits target mean std loss f method lower upper)
    (hne : method ≠ refMethod) (hd : Drawn P μ draw)
    (ht : ∀ n ω, RegrTestSet xTrain yTrain (xTest n ω) (yTest n ω) methods c (fun i : Fin n => target (draw i ω)) (fun m i => mean m (draw i ω)) (fun m i => std m (draw i ω)))
    (h2 : ∀ m, m = method ∨ m = refMethod → Integrable (fun s => f (target s) (mean m s) (max c (std m s)) ^ 2) μ)
    (hv : ∫ s, (f (target s) (mean method s) (max c (std method s)) - f (target s) (mean refMethod s) (max c (std refMethod s)) -
      (regrRisk μ f c target (mean method) (std method) - regrRisk μ f c target (mean refMethod) (std refMethod))) ^ 2 ∂μ ≠ 0) {δ : ℝ} (hδ : 0 < δ) :
    ∀ᶠ n in atTop, Likely P (95 / 100 - δ) {ω | ∀ full, Regr.justBenchmark studentT dt dt' xTrain yTrain (xTest n ω) (yTest n ω) methods losses
      refMethod (.fin c) true .t limits (ld n ω) = .ok full → ∀ cell cellRef, FullCell full loss.1 method cell →
      FullCell full loss.1 refMethod cellRef →
      PairHolds cell cellRef (regrRisk μ f c target (mean method) (std method) - regrRisk μ f c target (mean refMethod) (std refMethod))} := by
  filter_upwards [grow_pair (ld := ld) (rep := fun n ω full => Regr.justBenchmark studentT dt dt' xTrain yTrain (xTest n ω) (yTest n ω) methods losses
      refMethod (.fin c) true .t limits (ld n ω) = .ok full)
      (drawn_diff_stream hd (hs.meas _ (.inl rfl)) (hs.meas _ (.inr rfl)) (h2 _ (.inl rfl)) (h2 _ (.inr rfl)) hv) hs.valid
      (hs.bound _ (.inl rfl)) (hs.bound _ (.inr rfl)) hs.limits hne (fun n ω full h => hs.measured (ht n ω) h) hδ] with n hn
  refine hn.mono ?_
  intro ω h full h1 cell cellRef h2 h3
  exact h full cell cellRef h1 h2 h3

/-- **C141, regression, p-values of the default method.**  For large test sets a method with the same risk as the reference is flagged at level `α` with
probability at most `α` plus `δ`. -/
theorem C141_regr_p_value_t (hs : RegrSetup methods losses refMethod c limits target mean std loss f method lower upper)
    (hne : method ≠ refMethod) (hd : Drawn P μ draw)
    (ht : ∀ n ω, RegrTestSet xTrain yTrain (xTest n ω) (yTest n ω) methods c (fun i : Fin n => target (draw i ω)) (fun m i => mean m (draw i ω)) (fun m i => std m (draw i ω)))
    (h2 : ∀ m, m = method ∨ m = refMethod → Integrable (fun s => f (target s) (mean m s) (max c (std m s)) ^ 2) μ)
    (hv : ∫ s, (f (target s) (mean method s) (max c (std method s)) - f (target s) (mean refMethod s) (max c (std refMethod s))) ^ 2 ∂μ ≠ 0)
    (heq : regrRisk μ f c target (mean method) (std method) = regrRisk μ f c target (mean refMethod) (std refMethod)) {α δ : ℝ} (h0 : 0 ≤ α) (h1 : α ≤ 1) (hδ : 0 < δ) :
    ∀ᶠ n in atTop, P.real {ω | ∃ cell, ShowsR (Regr.justBenchmark studentT dt dt' xTrain yTrain (xTest n ω) (yTest n ω) methods losses
      refMethod (.fin c) pairwise .t limits (ld n ω)) loss.1 method cell ∧ Flagged cell α} ≤ α + δ := by
  have hst := drawn_diff_stream hd (hs.meas _ (.inl rfl)) (hs.meas _ (.inr rfl)) (h2 _ (.inl rfl)) (h2 _ (.inr rfl))
    (by unfold regrRisk at heq; rw [heq, sub_self]; simpa using hv)
  unfold regrRisk at heq
  rw [heq, sub_self] at hst
  filter_upwards [grow_test (draw := draw) (g := fun s => f (target s) (mean method s) (max c (std method s))) (r := fun s => f (target s) (mean refMethod s) (max c (std refMethod s))) (ld := ld) (rep := fun n ω full => Regr.justBenchmark studentT dt dt' xTrain yTrain (xTest n ω) (yTest n ω) methods losses
      refMethod (.fin c) pairwise .t limits (ld n ω) = .ok full) hst hs.limits hne
      (fun n ω full h => hs.measured (ht n ω) h) h0 h1 hδ] with n hn
  refine (measureReal_mono ?_).trans hn
  rintro ω ⟨cell, ⟨full, h1, h2⟩, h3⟩
  exact ⟨full, cell, h1, h2, h3⟩

/-- **C141, regression, growing test sets.**  With `'t'`, or with `'bernstein'` and finite limits, almost surely the mean converges to the risk and the error bar to 0;
and if the risk differs from that of the reference the p-value converges to 0, so the difference is found. -/
theorem C141_regr_limit (hs : RegrSetup methods losses refMethod c limits target mean std loss f method lower upper)
    (hM : Shrinking M lower upper) (hne : method ≠ refMethod) (hd : Drawn P μ draw)
    (ht : ∀ n ω, RegrTestSet xTrain yTrain (xTest n ω) (yTest n ω) methods c (fun i : Fin n => target (draw i ω)) (fun m i => mean m (draw i ω)) (fun m i => std m (draw i ω)))
    (h2 : ∀ m, m = method ∨ m = refMethod → Integrable (fun s => f (target s) (mean m s) (max c (std m s)) ^ 2) μ)
    (hv : ∫ s, (f (target s) (mean method s) (max c (std method s)) - regrRisk μ f c target (mean method) (std method)) ^ 2 ∂μ ≠ 0)
    (hw : ∫ s, (f (target s) (mean method s) (max c (std method s)) - f (target s) (mean refMethod s) (max c (std refMethod s)) -
      (regrRisk μ f c target (mean method) (std method) - regrRisk μ f c target (mean refMethod) (std refMethod))) ^ 2 ∂μ ≠ 0) :
    ∀ᵐ ω ∂P, ∀ ε > 0, ∀ᶠ n in atTop, ∀ cell, ShowsR (Regr.justBenchmark studentT dt dt' xTrain yTrain (xTest n ω) (yTest n ω) methods losses
      refMethod (.fin c) pairwise M limits (ld n ω)) loss.1 method cell →
      (∃ mu e : ℝ, cell.1 = .fin mu ∧ |mu - regrRisk μ f c target (mean method) (std method)| < ε ∧ cell.2.1 = .fin e ∧ 0 ≤ e ∧ e < ε) ∧
      (regrRisk μ f c target (mean method) (std method) ≠ regrRisk μ f c target (mean refMethod) (std refMethod) → Flagged cell ε) := by
  filter_upwards [grow_limit (ld := ld) (rep := fun n ω full => Regr.justBenchmark studentT dt dt' xTrain yTrain (xTest n ω) (yTest n ω) methods losses
      refMethod (.fin c) pairwise M limits (ld n ω) = .ok full) (drawn_stream hd (hs.meas _ (.inl rfl)) (h2 _ (.inl rfl)) rfl hv)
      (drawn_diff_stream hd (hs.meas _ (.inl rfl)) (hs.meas _ (.inr rfl)) (h2 _ (.inl rfl)) (h2 _ (.inr rfl)) hw) hs.valid
      (hs.bound _ (.inl rfl)) (hs.bound _ (.inr rfl)) hs.limits hne hM (fun n ω full h => hs.measured (ht n ω) h)] with ω hω ε hε
  filter_upwards [hω ε hε] with n hn
  rintro cell ⟨full, h1, h2⟩
  obtain ⟨a, b⟩ := hn full cell h1 h2
  refine ⟨a, fun hne' => ?_⟩
  obtain ⟨p, hp, -, hlt⟩ := b (sub_ne_zero.2 hne')
  exact ⟨p, hp, hlt.le⟩

end

omit [MeasurableSpace S] in
/-- **C141, regression, success.**  The benchmark with the standard losses, `'bernstein'` and limits that contain all losses succeeds. -/
theorem C141_regr_success {n : ℕ} {s : Fin n → S} {xTest : Features D} {yTest : Arr} {ld : Str → Str → Draws}
    (hn : (methods.map fun m => m.1).Nodup) (href : refMethod ∈ (methods.map fun m => m.1))
    (hg : GoodRegr xTrain yTrain xTest (.fin c) n)
    (ht : RegrTestSet xTrain yTrain xTest yTest methods c (fun i => target (s i)) (fun m i => mean m (s i)) (fun m i => std m (s i)))
    (hT : 2 ≤ n → IsSymmetric (T (n - 1)))
    (hlim : ∀ lf ∈ stdPoint, ∃ l u : ℝ, LimitsOf limits lf.1 (.fin l) (.fin u) ∧ l ≤ u ∧ ∀ m ∈ methods, ∀ i,
        l ≤ lf.2 (target (s i)) (mean m.1 (s i)) (max c (std m.1 (s i))) ∧ lf.2 (target (s i)) (mean m.1 (s i)) (max c (std m.1 (s i))) ≤ u) :
    ∀ method ∈ methods.map (fun m => m.1), ∀ l ∈ stdRegrLoss, ∃ cell, ShowsR (Regr.justBenchmark T dt dt xTrain yTrain xTest yTest methods
      stdRegrLoss refMethod (.fin c) pairwise .bernstein limits ld) l.1 method cell := by
  obtain ⟨full0, h0, -⟩ := C91_regr_standard T dt (xTrain := xTrain) (yTrain := yTrain) (xTest := xTest) (ys := List.ofFn fun i => target (s i))
    (c := c) false (methodEB := .t) (draws := ld) hn href (by rw [List.length_ofFn]; exact hg)
    (fun m => (List.ofFn fun i => mean m (s i), List.ofFn fun i => std m (s i))) (fun m hm => ⟨ht.preds m hm, by simp, by simp, fun x hx => by
      obtain ⟨i, rfl⟩ := List.mem_ofFn.1 hx
      exact ht.pos m hm i⟩) (by simp) (by rw [List.length_ofFn]; exact hT) (by simp)
  rw [← ht.targets] at h0
  obtain ⟨h1, tbl, out0, -, h3, -, h5, h6, h7, h8⟩ := regr_losses hn stdRegr_nodup ht h0
  have hmets : ∀ metric ∈ tbl.metrics, ∃ lf ∈ stdPoint, lf.1 = metric ∧ ∃ l ∈ stdRegrLoss, l.1 = metric ∧ ScoresR l.2 lf.2 := by
    intro metric hm
    obtain ⟨l, hl, rfl⟩ := List.mem_map.1 (h6.mem_iff.1 hm)
    obtain ⟨i, hi, rfl⟩ := List.getElem_of_mem hl
    have hlen := scores_regr.length_eq
    have := (List.forall₂_iff_get.1 scores_regr).2 i hi (hlen ▸ hi)
    exact ⟨_, List.getElem_mem (hlen ▸ hi), this.1.symm, _, List.getElem_mem hi, rfl, this.2⟩
  obtain ⟨out, hout⟩ := C52_success T (tbl := tbl) (refMethod := refMethod) pairwise (c := 95 / 100) (by norm_num) (by norm_num)
    (methodEB := .bernstein) (by simp) (limits := limits) (draws := ld) (by rw [h5]; exact hT) (by simp) (h7.mem_iff.2 href)
    (by rw [h5]; exact h1) (by
      intro e
      rw [e] at h6
      have := h6.length_eq
      simp [stdRegrLoss] at this) (by
      intro metric hmet
      obtain ⟨lf, hlf, rfl, l, hl, e, hsc⟩ := hmets metric hmet
      obtain ⟨a, b, hab, hle, hin⟩ := hlim lf hlf
      refine ⟨.fin a, .fin b, hab, by simp [ValidLimits, hle], fun method hmm => ?_⟩
      obtain ⟨m, hm, rfl⟩ := List.mem_map.1 (h7.mem_iff.1 hmm)
      refine ⟨_, e ▸ h3 l hl _ hsc m hm, by simp [h5], ?_⟩
      intro x hx
      obtain ⟨i, rfl⟩ := List.mem_ofFn.1 hx
      simpa using hin m hm i)
  have hf := h8 T .bernstein pairwise limits ld out hout
  intro method hmeth l hl
  have hc := C51_cells hout
  obtain ⟨i, hi, hi'⟩ := List.getElem_of_mem (h6.mem_iff.2 (List.mem_map_of_mem (f := fun m => m.1) hl))
  obtain ⟨j, hj, hj'⟩ := List.getElem_of_mem (h7.mem_iff.2 hmeth)
  have hio : i < out.length := by rw [← hc.length_eq]; exact hi
  have hrow := (List.forall₂_iff_get.1 hc).2 i hi hio
  have hjo : j < out[i].length := by rw [List.get_eq_getElem, List.get_eq_getElem] at hrow; rw [← hrow.length_eq]; exact hj
  refine ⟨out[i][j], _, hf, i, j, out[i], ?_, ?_, ?_, List.getElem?_eq_getElem hjo⟩
  · rw [List.getElem?_eq_getElem hi, hi']
  · rw [List.getElem?_eq_getElem hj, hj']
  · rw [List.getElem?_eq_getElem hio]

end
end Mlp.Props
