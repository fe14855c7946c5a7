import Verif.Props.BenchRisk
import Verif.Props.Consistency

/-! # C141: the error bars and p-values of a benchmark on independent test points -/

namespace Mlp.Props
open Mlp.Paper Mlp.Spec Mlp.Lemmas Mlp.Classif MeasureTheory ProbabilityTheory Filter Topology

/-! ### Cells of tables with known losses -/

/-- The table `full` shows the cells that `loss_summary_table` has for the losses `x` of the method and `y` of the reference. -/
def Measured (T : Nat → RefDist) (refMethod : Str) (pairwise : Bool) (M : EBMethod) (limits : List (Str × (Flt ℝ × Flt ℝ)))
    (ld : Str → Str → Draws) (metric method : Str) (full : FullTable) {n : ℕ} (x y : Fin n → ℝ) : Prop :=
  1 ≤ n ∧ ∃ tbl out, lossSummaryTable T tbl refMethod pairwise (.fin (95 / 100)) M limits ld = .ok out ∧
    HasLoss tbl metric method (finVec (List.ofFn x)) ∧ HasLoss tbl metric refMethod (finVec (List.ofFn y)) ∧
    ∀ m cell, FullCell full metric m cell → SummaryCell tbl out metric m cell

section
variable {T : Nat → RefDist} {refMethod : Str} {pairwise : Bool} {M : EBMethod} {limits : List (Str × (Flt ℝ × Flt ℝ))}
  {ld : Str → Str → Draws} {metric method : Str} {full : FullTable} {n : ℕ} {x y : Fin n → ℝ} {lower upper : Flt ℝ}

theorem ofFn_sub (x y : Fin n → ℝ) :
    List.zipWith (· - ·) (List.ofFn x) (List.ofFn y) = List.ofFn fun i => x i - y i := by
  apply List.ext_getElem
  · simp
  · intro k h1 h2
    simp

theorem Measured.cell (h : Measured T refMethod pairwise M limits ld metric method full x y) (hl : LimitsOf limits metric lower upper)
    {cell : Flt ℝ × Flt ℝ × Flt ℝ} (hc : FullCell full metric method cell) :
    cell.1 = .fin (avg (List.ofFn x)) ∧
    (pairwise = true → method ≠ refMethod →
      ∃ m, getMeanEB T (finVec (List.ofFn fun i => x i - y i)) (.fin (95 / 100)) (.fin 0) (upper.sub lower).neg (upper.sub lower) M
        (ld metric method).eb = .ok (m, cell.2.1)) ∧
    (pairwise = false →
      getMeanEB T (finVec (List.ofFn x)) (.fin (95 / 100)) (.fin 0) lower upper M (ld metric method).eb =
        .ok (.fin (avg (List.ofFn x)), cell.2.1)) ∧
    (method ≠ refMethod → getTest T (finVec (List.ofFn fun i => x i - y i)) (upper.sub lower).neg (upper.sub lower) M
      (if pairwise then (ld metric method).eb else (ld metric method).test) = .ok cell.2.2) := by
  obtain ⟨hn, tbl, out, ho, hx, hy, hcell⟩ := h
  obtain ⟨loss, lossRef, lo, hi, h1, h2, h3, -, -, -, -, h8, -, h10, h11⟩ := summaryCell_isCell ho (hcell _ _ hc)
  obtain rfl := hasLoss_unique hx h1
  obtain rfl := hasLoss_unique hy h2
  obtain ⟨rfl, rfl⟩ := limitsOf_unique hl h3
  have hne : List.ofFn x ≠ [] := by
    intro e
    have := congrArg List.length e
    simp at this
    omega
  rw [deltas_finVec, ofFn_sub] at h10 h11
  rw [mean_finVec hne] at h8 h11
  refine ⟨h8, fun hp hm => ?_, fun hp => (h11 hp).1, fun hm => ?_⟩
  · obtain ⟨m, hm'⟩ := h10 hp hm
    exact ⟨m, ((C49_agree T _ _ _ _ _ _ _ m cell.2.1 cell.2.2).1 hm').1⟩
  · cases pairwise with
    | true =>
      obtain ⟨m, hm'⟩ := h10 rfl hm
      exact ((C49_agree T _ _ _ _ _ _ _ m cell.2.1 cell.2.2).1 hm').2
    | false => exact (h11 rfl).2.2 hm

theorem Measured.cell_ref (h : Measured T refMethod pairwise M limits ld metric method full x y) {cell : Flt ℝ × Flt ℝ × Flt ℝ}
    (hc : FullCell full metric refMethod cell) : cell.1 = .fin (avg (List.ofFn y)) := by
  obtain ⟨hn, tbl, out, ho, hx, hy, hcell⟩ := h
  obtain ⟨loss, lossRef, lo, hi, h1, h2, h3, -, -, -, -, h8, -⟩ := summaryCell_isCell ho (hcell _ _ hc)
  obtain rfl := hasLoss_unique hy h1
  rw [h8]
  refine mean_finVec fun e => ?_
  have := congrArg List.length e
  simp at this
  omega

end

/-! ### Losses of independent draws -/

variable {Ω S : Type} [MeasurableSpace Ω] [MeasurableSpace S] {P : Measure Ω} {μ : Measure S} [IsProbabilityMeasure P]

section
variable {ι : Type} {draw : ι → Ω → S}

theorem drawn_integral (h : Drawn P μ draw) {g : S → ℝ} (hg : Measurable g) (i : ι) : ∫ ω, g (draw i ω) ∂P = ∫ s, g s ∂μ := by
  rw [← h.law i, integral_map (h.meas i).aemeasurable hg.aestronglyMeasurable]

theorem drawn_indep (h : Drawn P μ draw) {g : S → ℝ} (hg : Measurable g) : iIndepFun (fun i ω => g (draw i ω)) P :=
  h.indep.comp (fun _ => g) fun _ => hg

end

section
variable {T : Nat → RefDist} {refMethod : Str} {pairwise : Bool} {M : EBMethod} {limits : List (Str × (Flt ℝ × Flt ℝ))}
  {metric method : Str} {n : ℕ} {draw : Fin n → Ω → S} {g r : S → ℝ} {l u : ℝ} {ld : Ω → Str → Str → Draws} {rep : Ω → FullTable → Prop}

theorem cover_bar (hd : Drawn P μ draw) (hg : Measurable g) (hlu : l ≤ u) (hb : ∀ s, l ≤ g s ∧ g s ≤ u)
    (hl : LimitsOf limits metric (.fin l) (.fin u))
    (hm : ∀ ω full, rep ω full → Measured T refMethod false .bernstein limits (ld ω) metric method full (fun i => g (draw i ω)) fun i => r (draw i ω)) :
    Likely P (95 / 100) {ω | ∀ full cell, rep ω full → FullCell full metric method cell → BarHolds cell (∫ s, g s ∂μ)} := by
  rcases Nat.eq_zero_or_pos n with rfl | hn
  · exact .of_all (by norm_num) fun ω full cell h => absurd (hm ω full h).1 (by norm_num)
  refine (C93_mean_and_EB T hn (X := fun i ω => g (draw i ω)) (fun i => hg.comp (hd.meas i)) (drawn_indep hd hg) hlu (fun i ω => hb _)
    (drawn_integral hd hg) (c := 95 / 100) (by norm_num) (by norm_num) le_rfl (by linarith) fun ω => (ld ω metric method).eb).2.mono ?_
  rintro ω ⟨mu, e, he, hcov⟩ full cell hr hc
  have hcell := (hm ω full hr).cell hl hc
  have h2 := hcell.2.2.1 rfl
  unfold observed at he
  rw [h2] at he
  injection he with he
  injection he with he1 he2
  exact ⟨mu, e, hcell.1.trans he1, he2, hcov⟩

theorem bound_sub (hb : ∀ s, l ≤ g s ∧ g s ≤ u) (hb' : ∀ s, l ≤ r s ∧ r s ≤ u) (s : S) : -(u - l) ≤ g s - r s ∧ g s - r s ≤ u - l := by
  have a := hb s
  have b := hb' s
  constructor <;> linarith [a.1, a.2, b.1, b.2]

theorem integral_diff [IsFiniteMeasure μ] (hg : Measurable g) (hr : Measurable r) (hb : ∀ s, l ≤ g s ∧ g s ≤ u) (hb' : ∀ s, l ≤ r s ∧ r s ≤ u) :
    ∫ s, (g s - r s) ∂μ = ∫ s, g s ∂μ - ∫ s, r s ∂μ :=
  integral_sub (Integrable.of_mem_Icc l u hg.aemeasurable (.of_forall hb)) (Integrable.of_mem_Icc l u hr.aemeasurable (.of_forall hb'))

theorem cover_pair [IsFiniteMeasure μ] (hd : Drawn P μ draw) (hg : Measurable g) (hr : Measurable r) (hlu : l ≤ u) (hb : ∀ s, l ≤ g s ∧ g s ≤ u)
    (hb' : ∀ s, l ≤ r s ∧ r s ≤ u) (hl : LimitsOf limits metric (.fin l) (.fin u)) (hne : method ≠ refMethod)
    (hm : ∀ ω full, rep ω full → Measured T refMethod true .bernstein limits (ld ω) metric method full (fun i => g (draw i ω)) fun i => r (draw i ω)) :
    Likely P (95 / 100) {ω | ∀ full cell cellRef, rep ω full → FullCell full metric method cell → FullCell full metric refMethod cellRef →
      PairHolds cell cellRef (∫ s, g s ∂μ - ∫ s, r s ∂μ)} := by
  rcases Nat.eq_zero_or_pos n with rfl | hn
  · exact .of_all (by norm_num) fun ω full cell _ h => absurd (hm ω full h).1 (by norm_num)
  have hD := C93_mean_and_EB T hn (X := fun i ω => g (draw i ω) - r (draw i ω)) (fun i => (hg.comp (hd.meas i)).sub (hr.comp (hd.meas i)))
    (drawn_indep hd (hg.sub hr)) (l := -(u - l)) (u := u - l) (by linarith) (fun i ω => bound_sub hb hb' _)
    (fun i => (drawn_integral hd (hg.sub hr) i).trans (integral_diff hg hr hb hb')) (c := 95 / 100) (by norm_num) (by norm_num) le_rfl (by linarith)
    fun ω => (ld ω metric method).eb
  refine hD.2.mono ?_
  rintro ω ⟨mu, e, he, hcov⟩ full cell cellRef hr' hc hcr
  have hcell := (hm ω full hr').cell hl hc
  have hcellR := (hm ω full hr').cell_ref hcr
  obtain ⟨m, h2⟩ := hcell.2.1 rfl hne
  simp only [Flt.sub_fin, Flt.neg_fin] at h2
  obtain ⟨e', h3⟩ := hD.1 ω
  have h4 := h3
  unfold observed at he h3
  rw [h2] at he h3
  injection he with he
  injection he with he1 he2
  injection h3 with h3
  injection h3 with h31 h32
  have hmu : mu = avg (List.ofFn fun i => g (draw i ω)) - avg (List.ofFn fun i => r (draw i ω)) := by
    have := he1.symm.trans h31
    injection this with this
    rw [this]
    have a := observed_avg (fun i ω => g (draw i ω)) ω
    have b := observed_avg (fun i ω => r (draw i ω)) ω
    have c := observed_avg (fun i ω => g (draw i ω) - r (draw i ω)) ω
    unfold observed at a b c
    rw [a, b, c]
    simp only [Finset.sum_sub_distrib, sub_div]
  exact ⟨_, _, e, hcell.1, hcellR, he2, hmu ▸ hcov⟩

theorem cover_test [IsFiniteMeasure μ] (hd : Drawn P μ draw) (hg : Measurable g) (hr : Measurable r) (hlu : l ≤ u) (hb : ∀ s, l ≤ g s ∧ g s ≤ u)
    (hb' : ∀ s, l ≤ r s ∧ r s ≤ u) (hl : LimitsOf limits metric (.fin l) (.fin u)) (hne : method ≠ refMethod)
    (hm : ∀ ω full, rep ω full → Measured T refMethod pairwise .bernstein limits (ld ω) metric method full (fun i => g (draw i ω)) fun i => r (draw i ω))
    (heq : ∫ s, g s ∂μ = ∫ s, r s ∂μ) {α : ℝ} (hα : 0 ≤ α) :
    P.real {ω | ∃ full cell, rep ω full ∧ FullCell full metric method cell ∧ Flagged cell α} ≤ α := by
  refine (measureReal_mono ?_).trans (C93_test (X := fun i ω => g (draw i ω) - r (draw i ω)) (fun i => (hg.comp (hd.meas i)).sub (hr.comp (hd.meas i)))
    (drawn_indep hd (hg.sub hr)) (l := -(u - l)) (u := u - l) (by linarith) (fun i ω => bound_sub hb hb' _)
    (fun i => (drawn_integral hd (hg.sub hr) i).trans ((integral_diff hg hr hb hb').trans (sub_eq_zero.2 heq))) hα).2
  rintro ω ⟨full, cell, hr', hc, p, hp, hle⟩
  have hcell := ((hm ω full hr').cell hl hc).2.2.2 hne
  simp only [Flt.sub_fin, Flt.neg_fin] at hcell
  exact ⟨p, hp ▸ hcell, hle⟩

end

/-! ### Growing test sets -/

section
variable {refMethod : Str} {pairwise : Bool} {M : EBMethod} {limits : List (Str × (Flt ℝ × Flt ℝ))} {lower upper : Flt ℝ}
  {metric method : Str} {draw : ℕ → Ω → S} {g r : S → ℝ} {ld : ℕ → Ω → Str → Str → Draws} {rep : ℕ → Ω → FullTable → Prop}

theorem drawn_stream (hd : Drawn P μ draw) (hg : Measurable g) (h2 : Integrable (fun s => g s ^ 2) μ) {m : ℝ} (hm : ∫ s, g s ∂μ = m)
    (hv : ∫ s, (g s - m) ^ 2 ∂μ ≠ 0) : DataStream P (fun i ω => g (draw i ω)) m where
  meas i := hg.comp (hd.meas i)
  indep := drawn_indep hd hg
  same i := by
    have key : ∀ j, P.map (fun ω => g (draw j ω)) = μ.map g := fun j => by
      rw [← hd.law j, Measure.map_map hg (hd.meas j)]
      rfl
    rw [key, key]
  square := by
    rw [← hd.law 0] at h2
    exact (integrable_map_measure (hg.pow_const 2).aestronglyMeasurable (hd.meas 0).aemeasurable).1 h2
  mean := (drawn_integral hd hg 0).trans hm
  spread := by
    rw [drawn_integral hd (g := fun s => (g s - m) ^ 2) ((hg.sub_const m).pow_const 2) 0]
    exact hv

theorem drawn_diff_stream [IsFiniteMeasure μ] (hd : Drawn P μ draw) (hg : Measurable g) (hr : Measurable r) (h2 : Integrable (fun s => g s ^ 2) μ)
    (h2' : Integrable (fun s => r s ^ 2) μ)
    (hv : ∫ s, (g s - r s - (∫ s, g s ∂μ - ∫ s, r s ∂μ)) ^ 2 ∂μ ≠ 0) :
    DataStream P (fun i ω => g (draw i ω) - r (draw i ω)) (∫ s, g s ∂μ - ∫ s, r s ∂μ) := by
  have m1 : MemLp g 2 μ := (memLp_two_iff_integrable_sq hg.aestronglyMeasurable).2 h2
  have m2 : MemLp r 2 μ := (memLp_two_iff_integrable_sq hr.aestronglyMeasurable).2 h2'
  have h := drawn_stream (g := fun s => g s - r s) hd (hg.sub hr) (m1.sub m2).integrable_sq
    (integral_sub (m1.integrable (by norm_num)) (m2.integrable (by norm_num))) hv
  exact h

theorem grow_bar (hX : DataStream P (fun i ω => g (draw i ω)) m) (hv : ValidLimits lower upper)
    (hb : ∀ s, lower ≤ .fin (g s) ∧ .fin (g s) ≤ upper) (hl : LimitsOf limits metric lower upper)
    (hm : ∀ n ω full, rep n ω full → Measured studentT refMethod false .t limits (ld n ω) metric method full (fun i : Fin n => g (draw i ω))
      fun i => r (draw i ω)) {δ : ℝ} (hδ : 0 < δ) :
    ∀ᶠ n in atTop, Likely P (95 / 100 - δ) {ω | ∀ full cell, rep n ω full → FullCell full metric method cell → BarHolds cell m} := by
  have h := C130_mean_and_EB hX hv (fun i ω => hb _) (c := 95 / 100) (by norm_num) (by norm_num) fun n ω => (ld n ω metric method).eb
  filter_upwards [h.eventually_likely (show 95 / 100 - δ < 95 / 100 by linarith)] with n hn
  refine hn.mono ?_
  rintro ω ⟨mu, e, he, hcov⟩ full cell hr hc
  have hcell := (hm n ω full hr).cell hl hc
  have h2 := hcell.2.2.1 rfl
  unfold observedN observed at he
  rw [h2] at he
  injection he with he
  injection he with he1 he2
  exact ⟨mu, e, hcell.1.trans he1, he2, hcov⟩

theorem bound_diff (hv : ValidLimits lower upper) (hb : ∀ s, lower ≤ .fin (g s) ∧ .fin (g s) ≤ upper)
    (hb' : ∀ s, lower ≤ .fin (r s) ∧ .fin (r s) ≤ upper) (s : S) :
    (upper.sub lower).neg ≤ .fin (g s - r s) ∧ .fin (g s - r s) ≤ upper.sub lower :=
  diff_within hv (hb s) (hb' s)

theorem grow_pair (hD : DataStream P (fun i ω => g (draw i ω) - r (draw i ω)) m) (hv : ValidLimits lower upper)
    (hb : ∀ s, lower ≤ .fin (g s) ∧ .fin (g s) ≤ upper)
    (hb' : ∀ s, lower ≤ .fin (r s) ∧ .fin (r s) ≤ upper) (hl : LimitsOf limits metric lower upper) (hne : method ≠ refMethod)
    (hm : ∀ n ω full, rep n ω full → Measured studentT refMethod true .t limits (ld n ω) metric method full (fun i : Fin n => g (draw i ω))
      fun i => r (draw i ω)) {δ : ℝ} (hδ : 0 < δ) :
    ∀ᶠ n in atTop, Likely P (95 / 100 - δ) {ω | ∀ full cell cellRef, rep n ω full → FullCell full metric method cell →
      FullCell full metric refMethod cellRef → PairHolds cell cellRef m} := by
  have h := C130_mean_and_EB hD (diff_limits hv) (fun i ω => bound_diff hv hb hb' _) (c := 95 / 100) (by norm_num) (by norm_num)
    fun n ω => (ld n ω metric method).eb
  filter_upwards [h.eventually_likely (show 95 / 100 - δ < 95 / 100 by linarith), eventually_ge_atTop 2] with n hn hn2
  refine hn.mono ?_
  rintro ω ⟨mu, e, he, hcov⟩ full cell cellRef hr hc hcr
  have hcell := (hm n ω full hr).cell hl hc
  have hcellR := (hm n ω full hr).cell_ref hcr
  obtain ⟨m', h2⟩ := hcell.2.1 rfl hne
  obtain ⟨_, e', -, h3, -⟩ := getMeanEB_t_limits (xs := observedN (fun i ω => g (draw i ω) - r (draw i ω)) n ω) (by rw [observedN_length]; omega)
    (diff_limits hv) (observedN_within (fun i ω => bound_diff hv hb hb' _) n ω) (c := 95 / 100) (by norm_num) (by norm_num) (ld n ω metric method).eb
  have hav := observedN_avg (fun i ω => g (draw i ω) - r (draw i ω)) n ω
  have ha := observedN_avg (fun i ω => g (draw i ω)) n ω
  have hb0 := observedN_avg (fun i ω => r (draw i ω)) n ω
  rw [hav] at h3
  unfold observedN observed at he h3 ha hb0
  rw [h2] at he h3
  injection he with he
  injection he with he1 he2
  injection h3 with h3
  injection h3 with h31 h32
  have hmu : mu = avg (List.ofFn fun i : Fin n => g (draw i ω)) - avg (List.ofFn fun i : Fin n => r (draw i ω)) := by
    have := he1.symm.trans h31
    injection this with this
    rw [this, ha, hb0]
    simp only [Finset.sum_sub_distrib, sub_div]
  exact ⟨_, _, e, hcell.1, hcellR, he2, hmu ▸ hcov⟩

omit [MeasurableSpace S] in
theorem grow_test (hD : DataStream P (fun i ω => g (draw i ω) - r (draw i ω)) 0) (hl : LimitsOf limits metric lower upper)
    (hne : method ≠ refMethod)
    (hm : ∀ n ω full, rep n ω full → Measured studentT refMethod pairwise .t limits (ld n ω) metric method full (fun i : Fin n => g (draw i ω))
      fun i => r (draw i ω)) {α δ : ℝ} (h0 : 0 ≤ α) (h1 : α ≤ 1) (hδ : 0 < δ) :
    ∀ᶠ n in atTop, P.real {ω | ∃ full cell, rep n ω full ∧ FullCell full metric method cell ∧ Flagged cell α} ≤ α + δ := by
  filter_upwards [(C130_t_test hD h0 h1).2.eventually_le_const (show α < α + δ by linarith)] with n hn
  refine (measureReal_mono ?_).trans hn
  rintro ω ⟨full, cell, hr, hc, p, hp, hle⟩
  have hcell := ((hm n ω full hr).cell hl hc).2.2.2 hne
  exact ⟨p, hp ▸ hcell, hle⟩

theorem grow_limit (hX : DataStream P (fun i ω => g (draw i ω)) m) (hD : DataStream P (fun i ω => g (draw i ω) - r (draw i ω)) d)
    (hv : ValidLimits lower upper) (hb : ∀ s, lower ≤ .fin (g s) ∧ .fin (g s) ≤ upper)
    (hb' : ∀ s, lower ≤ .fin (r s) ∧ .fin (r s) ≤ upper) (hl : LimitsOf limits metric lower upper) (hne : method ≠ refMethod)
    (hM : Shrinking M lower upper)
    (hm : ∀ n ω full, rep n ω full → Measured studentT refMethod pairwise M limits (ld n ω) metric method full (fun i : Fin n => g (draw i ω))
      fun i => r (draw i ω)) :
    ∀ᵐ ω ∂P, ∀ ε > 0, ∀ᶠ n in atTop, ∀ full cell, rep n ω full → FullCell full metric method cell →
      (∃ mu e : ℝ, cell.1 = .fin mu ∧ |mu - m| < ε ∧ cell.2.1 = .fin e ∧ 0 ≤ e ∧ e < ε) ∧
      (d ≠ 0 → ∃ p : ℝ, cell.2.2 = .fin p ∧ 0 ≤ p ∧ p < ε) := by
  have ht : ∀ᵐ ω ∂P, d ≠ 0 → ∀ ε > 0, ∀ᶠ n in atTop, ∃ p : ℝ,
      getTest studentT (finVec (observedN (fun i ω => g (draw i ω) - r (draw i ω)) n ω)) (upper.sub lower).neg (upper.sub lower) M
        (if pairwise then (ld n ω metric method).eb else (ld n ω metric method).test) = .ok (.fin p) ∧ 0 ≤ p ∧ p < ε := by
    by_cases hd0 : d = 0
    · exact .of_forall fun ω h => absurd hd0 h
    · filter_upwards [C132_test hD hd0 (fun i ω => bound_diff hv hb hb' _) hM.diff
        (fun n ω => if pairwise then (ld n ω metric method).eb else (ld n ω metric method).test)] with ω hω _
      exact hω
  have h1 := C132_mean_and_EB hX hv (fun i ω => hb _) hM (c := 95 / 100) (by norm_num) (by norm_num) fun n ω => (ld n ω metric method).eb
  have h2 := C132_mean_and_EB hD (diff_limits hv) (fun i ω => bound_diff hv hb hb' _) hM.diff (c := 95 / 100) (by norm_num) (by norm_num)
    fun n ω => (ld n ω metric method).eb
  filter_upwards [ht, h1, h2, hX.avg_tendsto] with ω w0 w1 w2 w3 ε hε
  have w0' : ∀ᶠ n in atTop, d ≠ 0 → ∃ p : ℝ,
      getTest studentT (finVec (observedN (fun i ω => g (draw i ω) - r (draw i ω)) n ω)) (upper.sub lower).neg (upper.sub lower) M
        (if pairwise then (ld n ω metric method).eb else (ld n ω metric method).test) = .ok (.fin p) ∧ 0 ≤ p ∧ p < ε := by
    by_cases hd0 : d = 0
    · exact .of_forall fun n h => absurd hd0 h
    · filter_upwards [w0 hd0 ε hε] with n hn _
      exact hn
  filter_upwards [w0', w1 ε hε, w2 ε hε, Metric.tendsto_nhds.1 w3 ε hε] with n a0 ⟨mu1, e1, a1, _, b1⟩ ⟨mu2, e2, a2, _, b2⟩ a3 full cell hr hc
  have hcell := (hm n ω full hr).cell hl hc
  refine ⟨?_, fun hd0 => ?_⟩
  · have hE : ∃ e : ℝ, cell.2.1 = .fin e ∧ 0 ≤ e ∧ e < ε := by
      cases pairwise with
      | true =>
        obtain ⟨m', h3⟩ := hcell.2.1 rfl hne
        unfold observedN observed at a2
        rw [h3] at a2
        injection a2 with a2
        injection a2 with _ a2
        exact ⟨e2, a2, b2⟩
      | false =>
        have h3 := hcell.2.2.1 rfl
        unfold observedN observed at a1
        rw [h3] at a1
        injection a1 with a1
        injection a1 with _ a1
        exact ⟨e1, a1, b1⟩
    obtain ⟨e, he, he0⟩ := hE
    exact ⟨_, e, hcell.1, by rw [Real.dist_eq] at a3; exact a3, he, he0⟩
  · obtain ⟨p, hp, hp0⟩ := a0 hd0
    have h4 := hcell.2.2.2 hne
    unfold observedN observed at hp
    rw [h4] at hp
    injection hp with hp
    exact ⟨p, hp, hp0⟩

end

end Mlp.Props
