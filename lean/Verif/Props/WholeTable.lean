import Verif.Props.BenchPromise
import Verif.Props.BenchPromiseRegr
import Verif.Spec.WholeTable

/-! # C143: conclusions from a whole table of results -/

namespace Mlp.Props
open Mlp Mlp.Util Mlp.Spec Mlp.Classif Mlp.Lemmas Mlp.Frame Mlp.Boot Mlp.Perf Mlp.Paper MeasureTheory ProbabilityTheory Filter Topology
open Mlp.Regr (Arr)

variable {Ω S D : Type} [MeasurableSpace Ω] [MeasurableSpace S] {P : Measure Ω} {μ : Measure S} [IsProbabilityMeasure P] [IsProbabilityMeasure μ]

/-! ### What follows if all error bars hold -/

theorem conclusions_of_bars {shows : Str → Flt ℝ × Flt ℝ × Flt ℝ → Prop} {s : Finset Str} {r : Str → ℝ}
    (h : ∀ m ∈ s, ∀ cell, shows m cell → BarHolds cell (r m)) : Conclusions shows s r := by
  refine ⟨fun m hm m' hm' a b ha hb hab => ?_, fun m hm a ha hmin m' hm' b hb => ?_⟩
  · obtain ⟨x, e, x', e', q1, q2, q3, q4, hlt⟩ := hab
    obtain ⟨y, d, p1, p2, -, p4⟩ := h m hm a ha
    obtain ⟨y', d', p1', p2', p3', -⟩ := h m' hm' b hb
    rw [q1] at p1; rw [q2] at p2; rw [q3] at p1'; rw [q4] at p2'
    cases p1; cases p2; cases p1'; cases p2'
    linarith
  · obtain ⟨y, d, p1, p2, -, p4⟩ := h m hm a ha
    obtain ⟨y', d', p1', p2', p3', -⟩ := h m' hm' b hb
    refine ⟨d, d', p2, p2', ?_⟩
    have := hmin m' hm' b hb
    rw [p1, p1', Flt.fin_le_fin] at this
    linarith

theorem signs_of_pair {cell cellRef : Flt ℝ × Flt ℝ × Flt ℝ} {r r' : ℝ} (h : PairHolds cell cellRef (r - r')) :
    (Ahead cell cellRef → r < r') ∧ (Behind cell cellRef → r' < r) := by
  obtain ⟨x, x', e, p1, p2, p3, p4, p5⟩ := h
  constructor
  · rintro ⟨y, d, y', q1, q2, q3, hlt⟩
    rw [q1] at p1; rw [q2] at p3; rw [q3] at p2
    cases p1; cases p2; cases p3
    linarith
  · rintro ⟨y, d, y', q1, q2, q3, hlt⟩
    rw [q1] at p1; rw [q2] at p3; rw [q3] at p2
    cases p1; cases p2; cases p3
    linarith

/-! ### Several events -/

section
variable {ι : Type} {s : Finset ι}

theorem all_likely {A : ι → Set Ω} (h : ∀ i ∈ s, Likely P (95 / 100) (A i)) :
    Likely P (1 - s.card * (5 / 100)) {ω | ∀ i ∈ s, ω ∈ A i} := by
  have := Likely.all (P := P) (s := s) (A := A) (a := fun _ => 5 / 100) fun i hi => by
    have := h i hi
    norm_num at this ⊢
    exact this
  rwa [Finset.sum_const, nsmul_eq_mul] at this

theorem all_likely_t {A : ι → ℕ → Set Ω} (h : ∀ i ∈ s, ∀ δ > 0, ∀ᶠ n in atTop, Likely P (95 / 100 - δ) (A i n)) {δ : ℝ} (hδ : 0 < δ) :
    ∀ᶠ n in atTop, Likely P (1 - s.card * (5 / 100) - δ) {ω | ∀ i ∈ s, ω ∈ A i n} := by
  have hk : (0 : ℝ) < s.card + 1 := by positivity
  have hδ' : 0 < δ / (s.card + 1) := div_pos hδ hk
  filter_upwards [(Filter.eventually_all_finset s).2 fun i hi => h i hi _ hδ'] with n hn
  refine (Likely.all (P := P) (s := s) (A := fun i => A i n) (a := fun _ => 5 / 100 + δ / (s.card + 1)) fun i hi =>
    (hn i hi).weaken (by linarith)).weaken ?_
  rw [Finset.sum_const, nsmul_eq_mul]
  have : (s.card : ℝ) * (δ / (s.card + 1)) ≤ δ := by
    rw [← mul_div_assoc, div_le_iff₀ hk]
    nlinarith
  linarith

theorem any_rare {A : ι → Set Ω} {α : ℝ} (hα : 0 ≤ α) (h : ∀ i ∈ s, P.real (A i) ≤ α / s.card) :
    P.real {ω | ∃ i ∈ s, ω ∈ A i} ≤ α := by
  have e : {ω | ∃ i ∈ s, ω ∈ A i} = ⋃ i ∈ s, A i := by ext ω; simp
  rw [e]
  refine (measureReal_biUnion_finset_le s _).trans ((Finset.sum_le_sum h).trans ?_)
  rw [Finset.sum_const, nsmul_eq_mul]
  rcases Nat.eq_zero_or_pos s.card with h0 | h0
  · rw [h0]; simpa using hα
  · rw [mul_div_cancel₀ _ (by positivity)]

theorem any_rare_t {A : ι → ℕ → Set Ω} {α : ℝ} (hα : 0 ≤ α) (h : ∀ i ∈ s, ∀ δ > 0, ∀ᶠ n in atTop, P.real (A i n) ≤ α / s.card + δ)
    {δ : ℝ} (hδ : 0 < δ) : ∀ᶠ n in atTop, P.real {ω | ∃ i ∈ s, ω ∈ A i n} ≤ α + δ := by
  rcases s.eq_empty_or_nonempty with rfl | hne
  · exact .of_forall fun n => by simp; linarith
  have hk : (0 : ℝ) < s.card := by exact_mod_cast hne.card_pos
  filter_upwards [(Filter.eventually_all_finset s).2 fun i hi => h i hi _ (div_pos hδ hk)] with n hn
  exact any_rare (α := α + δ) (by linarith) fun i hi => (hn i hi).trans (by rw [add_div])

end

/-! ### Classification -/

section
variable {T : Nat → RefDist} {other : Interp ℝ} {xTrain : Features D} {yTrain : LabelVec} {nLabels : Nat}
  {methods : List (Str × Classif.Estimator D)} {losses : List (Str × Metric)} {curves : List (Str × CurveF ℝ)} {refMethod : Str}
  {floor : Flt ℝ} {pairwise : Bool} {limits : List (Str × (Flt ℝ × Flt ℝ))} {lab : S → ℕ} {row : Str → S → List (Flt ℝ)}

section
variable {n : ℕ} {draw : Fin n → Ω → S} {xTest : Ω → Features D} {yTest : Ω → LabelVec} {cd : Ω → BootDraws} {ld : Ω → Str → Str → Draws}

/-- **C143, all error bars.**  With `'bernstein'`, for any `k` cells of the table, of any methods and losses, the error bars of all of them contain
the risks at the same time with probability at least one minus `k` times 5%. -/
theorem C143_table {ι : Type} {s : Finset ι} {loss : ι → Str × Metric} {f : ι → List ℝ → ℕ → ℝ} {method : ι → Str} {l u : ι → ℝ}
    (hs : ∀ i ∈ s, ClassSetup nLabels methods losses curves refMethod floor limits lab row (loss i) (f i) (method i) (.fin (l i)) (.fin (u i)))
    (hd : Drawn P μ draw)
    (ht : ∀ ω, TestSet xTrain yTrain (xTest ω) (yTest ω) nLabels methods floor (fun i => lab (draw i ω)) (fun m i => row m (draw i ω))) :
    Likely P (1 - s.card * (5 / 100)) {ω | ∀ i ∈ s, ∀ cell, Shows (Classif.justBenchmark T other xTrain yTrain (xTest ω) (yTest ω) nLabels methods
      losses curves refMethod floor false .bernstein limits (cd ω) (ld ω)) (loss i).1 (method i) cell →
      BarHolds cell (risk μ (f i) floor lab (row (method i)))} :=
  all_likely fun i hi => C141_error_bar (hs i hi) hd ht

/-- **C143, comparing methods and picking one.**  With `'bernstein'`, for `k` methods: with probability at least one minus `k` times 5%, of two
methods whose error bars are disjoint the lower one has the smaller risk, and a method picked because its mean is smallest has a risk that
exceeds the smallest risk at most by the error bars of the two methods. -/
theorem C143_conclusions {s : Finset Str} {loss : Str × Metric} {f : List ℝ → ℕ → ℝ} {l u : ℝ}
    (hs : ∀ m ∈ s, ClassSetup nLabels methods losses curves refMethod floor limits lab row loss f m (.fin l) (.fin u)) (hd : Drawn P μ draw)
    (ht : ∀ ω, TestSet xTrain yTrain (xTest ω) (yTest ω) nLabels methods floor (fun i => lab (draw i ω)) (fun m i => row m (draw i ω))) :
    Likely P (1 - s.card * (5 / 100)) {ω | Conclusions (Shows (Classif.justBenchmark T other xTrain yTrain (xTest ω) (yTest ω) nLabels methods
      losses curves refMethod floor false .bernstein limits (cd ω) (ld ω)) loss.1) s fun m => risk μ f floor lab (row m)} :=
  (C143_table (loss := fun _ => loss) (f := fun _ => f) (method := fun m => m) (l := fun _ => l) (u := fun _ => u) hs hd ht).mono
    fun _ h => conclusions_of_bars h

/-- **C143, comparing with the reference.**  With `'bernstein'` and `pairwise_CI`, for `k` methods other than the reference: with probability at least
one minus `k` times 5%, every method whose mean differs from that of the reference by more than its error bar differs from it in
risk, in the same direction. -/
theorem C143_pairwise {s : Finset Str} {loss : Str × Metric} {f : List ℝ → ℕ → ℝ} {l u : ℝ}
    (hs : ∀ m ∈ s, ClassSetup nLabels methods losses curves refMethod floor limits lab row loss f m (.fin l) (.fin u)) (hne : refMethod ∉ s)
    (hd : Drawn P μ draw)
    (ht : ∀ ω, TestSet xTrain yTrain (xTest ω) (yTest ω) nLabels methods floor (fun i => lab (draw i ω)) (fun m i => row m (draw i ω))) :
    Likely P (1 - s.card * (5 / 100)) {ω | ∀ full dump, Classif.justBenchmark T other xTrain yTrain (xTest ω) (yTest ω) nLabels methods losses curves
      refMethod floor true .bernstein limits (cd ω) (ld ω) = .ok (full, dump) → ∀ m ∈ s, ∀ cell cellRef, FullCell full loss.1 m cell →
      FullCell full loss.1 refMethod cellRef →
      (Ahead cell cellRef → risk μ f floor lab (row m) < risk μ f floor lab (row refMethod)) ∧
      (Behind cell cellRef → risk μ f floor lab (row refMethod) < risk μ f floor lab (row m))} :=
  (all_likely fun m hm => C141_pairwise (T := T) (other := other) (cd := cd) (ld := ld) (hs m hm) (fun e => hne (e ▸ hm)) hd ht).mono
    fun _ h full dump hr m hm cell cellRef hc hcr => signs_of_pair (h m hm full dump hr cell cellRef hc hcr)

/-- **C143, many p-values.**  With `'bernstein'`: if `k` p-values, of methods that have the same risk as the reference, are compared with `α/k`, then any of them is
at most `α/k` with probability at most `α`. -/
theorem C143_p_values {ι : Type} {s : Finset ι} {loss : ι → Str × Metric} {f : ι → List ℝ → ℕ → ℝ} {method : ι → Str} {l u : ι → ℝ}
    (hs : ∀ i ∈ s, ClassSetup nLabels methods losses curves refMethod floor limits lab row (loss i) (f i) (method i) (.fin (l i)) (.fin (u i)))
    (hne : ∀ i ∈ s, method i ≠ refMethod) (hd : Drawn P μ draw)
    (ht : ∀ ω, TestSet xTrain yTrain (xTest ω) (yTest ω) nLabels methods floor (fun i => lab (draw i ω)) (fun m i => row m (draw i ω)))
    (heq : ∀ i ∈ s, risk μ (f i) floor lab (row (method i)) = risk μ (f i) floor lab (row refMethod)) {α : ℝ} (hα : 0 ≤ α) :
    P.real {ω | ∃ i ∈ s, ∃ cell, Shows (Classif.justBenchmark T other xTrain yTrain (xTest ω) (yTest ω) nLabels methods losses curves
      refMethod floor pairwise .bernstein limits (cd ω) (ld ω)) (loss i).1 (method i) cell ∧ Flagged cell (α / s.card)} ≤ α :=
  any_rare hα fun i hi => C141_p_value (hs i hi) (hne i hi) hd ht (heq i hi) (by positivity)

end

section
variable {draw : ℕ → Ω → S} {xTest : ℕ → Ω → Features D} {yTest : ℕ → Ω → LabelVec} {cd : ℕ → Ω → BootDraws} {ld : ℕ → Ω → Str → Str → Draws}

/-- **C143, comparing methods and picking one, default method.**  With `'t'` the conclusions hold for large test sets with probability at least one
minus `k` times 5%, minus any `δ`. -/
theorem C143_conclusions_t {s : Finset Str} {loss : Str × Metric} {f : List ℝ → ℕ → ℝ} {lower upper : Flt ℝ}
    (hs : ∀ m ∈ s, ClassSetup nLabels methods losses curves refMethod floor limits lab row loss f m lower upper) (hd : Drawn P μ draw)
    (ht : ∀ n ω, TestSet xTrain yTrain (xTest n ω) (yTest n ω) nLabels methods floor (fun i : Fin n => lab (draw i ω)) (fun m i => row m (draw i ω)))
    (h2 : ∀ m ∈ s, Integrable (fun s => f (predicted floor (row m s)) (lab s) ^ 2) μ)
    (hv : ∀ m ∈ s, ∫ s, (f (predicted floor (row m s)) (lab s) - risk μ f floor lab (row m)) ^ 2 ∂μ ≠ 0) {δ : ℝ} (hδ : 0 < δ) :
    ∀ᶠ n in atTop, Likely P (1 - s.card * (5 / 100) - δ) {ω | Conclusions (Shows (Classif.justBenchmark studentT other xTrain yTrain (xTest n ω)
      (yTest n ω) nLabels methods losses curves refMethod floor false .t limits (cd n ω) (ld n ω)) loss.1) s fun m => risk μ f floor lab (row m)} := by
  filter_upwards [all_likely_t (fun m hm δ hδ => C141_error_bar_t (other := other) (cd := cd) (ld := ld) (hs m hm) hd ht (h2 m hm) (hv m hm) hδ) hδ]
    with n hn
  exact hn.mono fun _ h => conclusions_of_bars h

/-- **C143, comparing with the reference, default method.** -/
theorem C143_pairwise_t {s : Finset Str} {loss : Str × Metric} {f : List ℝ → ℕ → ℝ} {lower upper : Flt ℝ}
    (hs : ∀ m ∈ s, ClassSetup nLabels methods losses curves refMethod floor limits lab row loss f m lower upper) (hne : refMethod ∉ s)
    (hd : Drawn P μ draw)
    (ht : ∀ n ω, TestSet xTrain yTrain (xTest n ω) (yTest n ω) nLabels methods floor (fun i : Fin n => lab (draw i ω)) (fun m i => row m (draw i ω)))
    (h2 : ∀ m, m ∈ s ∨ m = refMethod → Integrable (fun s => f (predicted floor (row m s)) (lab s) ^ 2) μ)
    (hv : ∀ m ∈ s, ∫ s, (f (predicted floor (row m s)) (lab s) - f (predicted floor (row refMethod s)) (lab s) -
      (risk μ f floor lab (row m) - risk μ f floor lab (row refMethod))) ^ 2 ∂μ ≠ 0) {δ : ℝ} (hδ : 0 < δ) :
    ∀ᶠ n in atTop, Likely P (1 - s.card * (5 / 100) - δ) {ω | ∀ full dump, Classif.justBenchmark studentT other xTrain yTrain (xTest n ω) (yTest n ω)
      nLabels methods losses curves refMethod floor true .t limits (cd n ω) (ld n ω) = .ok (full, dump) → ∀ m ∈ s, ∀ cell cellRef,
      FullCell full loss.1 m cell → FullCell full loss.1 refMethod cellRef →
      (Ahead cell cellRef → risk μ f floor lab (row m) < risk μ f floor lab (row refMethod)) ∧
      (Behind cell cellRef → risk μ f floor lab (row refMethod) < risk μ f floor lab (row m))} := by
  filter_upwards [all_likely_t (fun m hm δ hδ => C141_pairwise_t (other := other) (cd := cd) (ld := ld) (hs m hm) (fun e => hne (e ▸ hm)) hd ht
    (fun m' h => h2 m' (h.imp (fun e : m' = m => e.symm ▸ hm) id)) (hv m hm) hδ) hδ] with n hn
  exact hn.mono fun _ h full dump hr m hm cell cellRef hc hcr => signs_of_pair (h m hm full dump hr cell cellRef hc hcr)

/-- **C143, many p-values, default method.** -/
theorem C143_p_values_t {ι : Type} {s : Finset ι} {loss : ι → Str × Metric} {f : ι → List ℝ → ℕ → ℝ} {method : ι → Str} {lower upper : ι → Flt ℝ}
    (hs : ∀ i ∈ s, ClassSetup nLabels methods losses curves refMethod floor limits lab row (loss i) (f i) (method i) (lower i) (upper i))
    (hne : ∀ i ∈ s, method i ≠ refMethod) (hd : Drawn P μ draw)
    (ht : ∀ n ω, TestSet xTrain yTrain (xTest n ω) (yTest n ω) nLabels methods floor (fun i : Fin n => lab (draw i ω)) (fun m i => row m (draw i ω)))
    (h2 : ∀ i ∈ s, ∀ m, m = method i ∨ m = refMethod → Integrable (fun s => f i (predicted floor (row m s)) (lab s) ^ 2) μ)
    (hv : ∀ i ∈ s, ∫ s, (f i (predicted floor (row (method i) s)) (lab s) - f i (predicted floor (row refMethod s)) (lab s)) ^ 2 ∂μ ≠ 0)
    (heq : ∀ i ∈ s, risk μ (f i) floor lab (row (method i)) = risk μ (f i) floor lab (row refMethod)) {α δ : ℝ} (h0 : 0 ≤ α) (h1 : α ≤ 1)
    (hδ : 0 < δ) :
    ∀ᶠ n in atTop, P.real {ω | ∃ i ∈ s, ∃ cell, Shows (Classif.justBenchmark studentT other xTrain yTrain (xTest n ω) (yTest n ω) nLabels methods
      losses curves refMethod floor pairwise .t limits (cd n ω) (ld n ω)) (loss i).1 (method i) cell ∧ Flagged cell (α / s.card)} ≤ α + δ :=
  any_rare_t h0 (fun i hi δ hδ => C141_p_value_t (hs i hi) (hne i hi) hd ht (h2 i hi) (hv i hi) (heq i hi) (by positivity)
    ((div_le_self h0 (by exact_mod_cast Finset.card_pos.2 ⟨i, hi⟩)).trans h1) hδ) hδ

end
end

/-! ### Regression -/

section
variable {T : Nat → RefDist} {dt dt' : Str} {xTrain : Features D} {yTrain : Arr}
  {methods : List (Str × Regr.Estimator D)} {losses : List (Str × Regr.Loss)} {refMethod : Str}
  {c : ℝ} {pairwise : Bool} {limits : List (Str × (Flt ℝ × Flt ℝ))} {target : S → ℝ} {mean std : Str → S → ℝ}

section
variable {n : ℕ} {draw : Fin n → Ω → S} {xTest : Ω → Features D} {yTest : Ω → Arr} {ld : Ω → Str → Str → Draws}

/-- **C143, regression, all error bars.** -/
theorem C143_regr_table {ι : Type} {s : Finset ι} {loss : ι → Str × Regr.Loss} {f : ι → ℝ → ℝ → ℝ → ℝ} {method : ι → Str} {l u : ι → ℝ}
    (hs : ∀ i ∈ s, RegrSetup methods losses refMethod c limits target mean std (loss i) (f i) (method i) (.fin (l i)) (.fin (u i)))
    (hd : Drawn P μ draw)
    (ht : ∀ ω, RegrTestSet xTrain yTrain (xTest ω) (yTest ω) methods c (fun i => target (draw i ω)) (fun m i => mean m (draw i ω)) (fun m i => std m (draw i ω))) :
    Likely P (1 - s.card * (5 / 100)) {ω | ∀ i ∈ s, ∀ cell, ShowsR (Regr.justBenchmark T dt dt' xTrain yTrain (xTest ω) (yTest ω) methods losses
      refMethod (.fin c) false .bernstein limits (ld ω)) (loss i).1 (method i) cell →
      BarHolds cell (regrRisk μ (f i) c target (mean (method i)) (std (method i)))} :=
  all_likely fun i hi => C141_regr_error_bar (hs i hi) hd ht

/-- **C143, regression, comparing methods and picking one.** -/
theorem C143_regr_conclusions {s : Finset Str} {loss : Str × Regr.Loss} {f : ℝ → ℝ → ℝ → ℝ} {l u : ℝ}
    (hs : ∀ m ∈ s, RegrSetup methods losses refMethod c limits target mean std loss f m (.fin l) (.fin u)) (hd : Drawn P μ draw)
    (ht : ∀ ω, RegrTestSet xTrain yTrain (xTest ω) (yTest ω) methods c (fun i => target (draw i ω)) (fun m i => mean m (draw i ω)) (fun m i => std m (draw i ω))) :
    Likely P (1 - s.card * (5 / 100)) {ω | Conclusions (ShowsR (Regr.justBenchmark T dt dt' xTrain yTrain (xTest ω) (yTest ω) methods losses
      refMethod (.fin c) false .bernstein limits (ld ω)) loss.1) s fun m => regrRisk μ f c target (mean m) (std m)} :=
  (C143_regr_table (loss := fun _ => loss) (f := fun _ => f) (method := fun m => m) (l := fun _ => l) (u := fun _ => u) hs hd ht).mono
    fun _ h => conclusions_of_bars h

/-- **C143, regression, comparing with the reference.** -/
theorem C143_regr_pairwise {s : Finset Str} {loss : Str × Regr.Loss} {f : ℝ → ℝ → ℝ → ℝ} {l u : ℝ}
    (hs : ∀ m ∈ s, RegrSetup methods losses refMethod c limits target mean std loss f m (.fin l) (.fin u)) (hne : refMethod ∉ s)
    (hd : Drawn P μ draw)
    (ht : ∀ ω, RegrTestSet xTrain yTrain (xTest ω) (yTest ω) methods c (fun i => target (draw i ω)) (fun m i => mean m (draw i ω)) (fun m i => std m (draw i ω))) :
    Likely P (1 - s.card * (5 / 100)) {ω | ∀ full, Regr.justBenchmark T dt dt' xTrain yTrain (xTest ω) (yTest ω) methods losses
      refMethod (.fin c) true .bernstein limits (ld ω) = .ok full → ∀ m ∈ s, ∀ cell cellRef, FullCell full loss.1 m cell →
      FullCell full loss.1 refMethod cellRef →
      (Ahead cell cellRef → regrRisk μ f c target (mean m) (std m) < regrRisk μ f c target (mean refMethod) (std refMethod)) ∧
      (Behind cell cellRef → regrRisk μ f c target (mean refMethod) (std refMethod) < regrRisk μ f c target (mean m) (std m))} :=
  (all_likely fun m hm => C141_regr_pairwise (T := T) (dt := dt) (dt' := dt') (ld := ld) (hs m hm) (fun e => hne (e ▸ hm)) hd ht).mono
    fun _ h full hr m hm cell cellRef hc hcr => signs_of_pair (h m hm full hr cell cellRef hc hcr)

/-- **C143, regression, many p-values.** -/
theorem C143_regr_p_values {ι : Type} {s : Finset ι} {loss : ι → Str × Regr.Loss} {f : ι → ℝ → ℝ → ℝ → ℝ} {method : ι → Str} {l u : ι → ℝ}
    (hs : ∀ i ∈ s, RegrSetup methods losses refMethod c limits target mean std (loss i) (f i) (method i) (.fin (l i)) (.fin (u i)))
    (hne : ∀ i ∈ s, method i ≠ refMethod) (hd : Drawn P μ draw)
    (ht : ∀ ω, RegrTestSet xTrain yTrain (xTest ω) (yTest ω) methods c (fun i => target (draw i ω)) (fun m i => mean m (draw i ω)) (fun m i => std m (draw i ω)))
    (heq : ∀ i ∈ s, regrRisk μ (f i) c target (mean (method i)) (std (method i)) = regrRisk μ (f i) c target (mean refMethod) (std refMethod))
    {α : ℝ} (hα : 0 ≤ α) :
    P.real {ω | ∃ i ∈ s, ∃ cell, ShowsR (Regr.justBenchmark T dt dt' xTrain yTrain (xTest ω) (yTest ω) methods losses
      refMethod (.fin c) pairwise .bernstein limits (ld ω)) (loss i).1 (method i) cell ∧ Flagged cell (α / s.card)} ≤ α :=
  any_rare hα fun i hi => C141_regr_p_value (hs i hi) (hne i hi) hd ht (heq i hi) (by positivity)

end

section
variable {draw : ℕ → Ω → S} {xTest : ℕ → Ω → Features D} {yTest : ℕ → Ω → Arr} {ld : ℕ → Ω → Str → Str → Draws}

/-- **C143, regression, comparing methods and picking one, default method.** -/
theorem C143_regr_conclusions_t {s : Finset Str} {loss : Str × Regr.Loss} {f : ℝ → ℝ → ℝ → ℝ} {lower upper : Flt ℝ}
    (hs : ∀ m ∈ s, RegrSetup methods losses refMethod c limits target mean std loss f m lower upper) (hd : Drawn P μ draw)
    (ht : ∀ n ω, RegrTestSet xTrain yTrain (xTest n ω) (yTest n ω) methods c (fun i : Fin n => target (draw i ω)) (fun m i => mean m (draw i ω)) (fun m i => std m (draw i ω)))
    (h2 : ∀ m ∈ s, Integrable (fun s => f (target s) (mean m s) (max c (std m s)) ^ 2) μ)
    (hv : ∀ m ∈ s, ∫ s, (f (target s) (mean m s) (max c (std m s)) - regrRisk μ f c target (mean m) (std m)) ^ 2 ∂μ ≠ 0) {δ : ℝ} (hδ : 0 < δ) :
    ∀ᶠ n in atTop, Likely P (1 - s.card * (5 / 100) - δ) {ω | Conclusions (ShowsR (Regr.justBenchmark studentT dt dt' xTrain yTrain (xTest n ω)
      (yTest n ω) methods losses refMethod (.fin c) false .t limits (ld n ω)) loss.1) s fun m => regrRisk μ f c target (mean m) (std m)} := by
  filter_upwards [all_likely_t (fun m hm δ hδ => C141_regr_error_bar_t (dt := dt) (dt' := dt') (ld := ld) (hs m hm) hd ht (h2 m hm) (hv m hm) hδ) hδ]
    with n hn
  exact hn.mono fun _ h => conclusions_of_bars h

/-- **C143, regression, comparing with the reference, default method.** -/
theorem C143_regr_pairwise_t {s : Finset Str} {loss : Str × Regr.Loss} {f : ℝ → ℝ → ℝ → ℝ} {lower upper : Flt ℝ}
    (hs : ∀ m ∈ s, RegrSetup methods losses refMethod c limits target mean std loss f m lower upper) (hne : refMethod ∉ s)
    (hd : Drawn P μ draw)
    (ht : ∀ n ω, RegrTestSet xTrain yTrain (xTest n ω) (yTest n ω) methods c (fun i : Fin n => target (draw i ω)) (fun m i => mean m (draw i ω)) (fun m i => std m (draw i ω)))
    (h2 : ∀ m, m ∈ s ∨ m = refMethod → Integrable (fun s => f (target s) (mean m s) (max c (std m s)) ^ 2) μ)
    (hv : ∀ m ∈ s, ∫ s, (f (target s) (mean m s) (max c (std m s)) - f (target s) (mean refMethod s) (max c (std refMethod s)) -
      (regrRisk μ f c target (mean m) (std m) - regrRisk μ f c target (mean refMethod) (std refMethod))) ^ 2 ∂μ ≠ 0) {δ : ℝ} (hδ : 0 < δ) :
    ∀ᶠ n in atTop, Likely P (1 - s.card * (5 / 100) - δ) {ω | ∀ full, Regr.justBenchmark studentT dt dt' xTrain yTrain (xTest n ω) (yTest n ω) methods
      losses refMethod (.fin c) true .t limits (ld n ω) = .ok full → ∀ m ∈ s, ∀ cell cellRef, FullCell full loss.1 m cell →
      FullCell full loss.1 refMethod cellRef →
      (Ahead cell cellRef → regrRisk μ f c target (mean m) (std m) < regrRisk μ f c target (mean refMethod) (std refMethod)) ∧
      (Behind cell cellRef → regrRisk μ f c target (mean refMethod) (std refMethod) < regrRisk μ f c target (mean m) (std m))} := by
  filter_upwards [all_likely_t (fun m hm δ hδ => C141_regr_pairwise_t (dt := dt) (dt' := dt') (ld := ld) (hs m hm) (fun e => hne (e ▸ hm)) hd ht
    (fun m' h => h2 m' (h.imp (fun e : m' = m => e.symm ▸ hm) id)) (hv m hm) hδ) hδ] with n hn
  exact hn.mono fun _ h full hr m hm cell cellRef hc hcr => signs_of_pair (h m hm full hr cell cellRef hc hcr)

/-- **C143, regression, many p-values, default method.** -/
theorem C143_regr_p_values_t {ι : Type} {s : Finset ι} {loss : ι → Str × Regr.Loss} {f : ι → ℝ → ℝ → ℝ → ℝ} {method : ι → Str} {lower upper : ι → Flt ℝ}
    (hs : ∀ i ∈ s, RegrSetup methods losses refMethod c limits target mean std (loss i) (f i) (method i) (lower i) (upper i))
    (hne : ∀ i ∈ s, method i ≠ refMethod) (hd : Drawn P μ draw)
    (ht : ∀ n ω, RegrTestSet xTrain yTrain (xTest n ω) (yTest n ω) methods c (fun i : Fin n => target (draw i ω)) (fun m i => mean m (draw i ω)) (fun m i => std m (draw i ω)))
    (h2 : ∀ i ∈ s, ∀ m, m = method i ∨ m = refMethod → Integrable (fun s => f i (target s) (mean m s) (max c (std m s)) ^ 2) μ)
    (hv : ∀ i ∈ s, ∫ s, (f i (target s) (mean (method i) s) (max c (std (method i) s)) - f i (target s) (mean refMethod s) (max c (std refMethod s))) ^ 2 ∂μ ≠ 0)
    (heq : ∀ i ∈ s, regrRisk μ (f i) c target (mean (method i)) (std (method i)) = regrRisk μ (f i) c target (mean refMethod) (std refMethod))
    {α δ : ℝ} (h0 : 0 ≤ α) (h1 : α ≤ 1) (hδ : 0 < δ) :
    ∀ᶠ n in atTop, P.real {ω | ∃ i ∈ s, ∃ cell, ShowsR (Regr.justBenchmark studentT dt dt' xTrain yTrain (xTest n ω) (yTest n ω) methods losses
      refMethod (.fin c) pairwise .t limits (ld n ω)) (loss i).1 (method i) cell ∧ Flagged cell (α / s.card)} ≤ α + δ :=
  any_rare_t h0 (fun i hi δ hδ => C141_regr_p_value_t (hs i hi) (hne i hi) hd ht (h2 i hi) (hv i hi) (heq i hi) (by positivity)
    ((div_le_self h0 (by exact_mod_cast Finset.card_pos.2 ⟨i, hi⟩)).trans h1) hδ) hδ

end
end
end Mlp.Props
