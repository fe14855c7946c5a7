import Verif.Props.TableAccuracy
import Verif.Props.TExact

/-! # C135: the promises of `loss_summary_table` in floating point -/

namespace Mlp.Props
open Mlp.Paper Mlp.PaperR Mlp.PerfR Mlp.BootR Mlp.Boot Mlp.Spec Mlp.Lemmas Mlp.Round MeasureTheory ProbabilityTheory
open scoped NNReal

variable {L : Lib ℝ} {u : ℝ} {Ω : Type} [MeasurableSpace Ω] {P : Measure Ω} [IsProbabilityMeasure P]

section
variable {n : ℕ} {tbl : Ω → LossTable} {metric method refMethod : Str} {limits : List (Str × (Flt ℝ × Flt ℝ))}
  {l h : ℝ} {X Y : Fin n → Ω → ℝ} {mX mY : ℝ}

/-- **C135, error bars.**  In floating point, without `pairwise_CI`: with probability at least the confidence the true expected loss is within
the error bar of the mean that the table shows, up to `132 n u log(3/(1-c))` times the larger limit. -/
theorem C135_error_bar (hL : GoodLib L) (hA : AccurateLib u L) (hr : RandomLosses P tbl metric method refMethod limits l h X Y mX mY)
    (hn : n * u ≤ 1 / 1000000) {c : ℝ} (h0 : 0 < c) (h1 : c < 1) {draws : Ω → Str → Str → Draws}
    {out : Ω → List (List (Flt ℝ × Flt ℝ × Flt ℝ))}
    (ho : ∀ ω, lossSummaryTableR L (tbl ω) refMethod false (.fin c) .bernstein limits (draws ω) = .ok (out ω))
    {cell : Ω → Flt ℝ × Flt ℝ × Flt ℝ} (hc : ∀ ω, SummaryCell (tbl ω) (out ω) metric method (cell ω)) :
    Likely P c {ω | ∃ mu e : ℝ, (cell ω).1 = .fin mu ∧ (cell ω).2.1 = .fin e ∧
      |mu - mX| ≤ e + 132 * (n * u) * (Real.log (3 / (1 - c)) * max |l| |h|)} := by
  have hg := gradual_of_relError hL.rnd hL.double hA.nonneg hA.rnd
  have hu := hA.nonneg
  have hlh := hr.le
  refine (C93_mean_and_EB studentT hr.rows hr.measX hr.indepX hr.le hr.boundX hr.meanX h0 h1 le_rfl
    (by linarith) fun ω => (draws ω metric method).eb).2.mono ?_
  rintro ω ⟨mu, e, he, hcov⟩
  have hlen : (observed X ω).length = n := observed_length X ω
  have hne := observed_ne_nil hr.rows X ω
  have hw := observed_within hr.boundX ω
  obtain ⟨f1, f2, -⟩ := summaryCellR (by simp) (ho ω) (hc ω) hr.limits (hr.meth ω) (hr.ref ω) hne
  obtain ⟨m, f2⟩ := f2 rfl
  obtain ⟨muR, e', eR, g1, g2, -, g4⟩ := C133_mean_and_EB_bernstein hL hA studentT hne (by rwa [hlen]) hlh hw h0 h1 le_rfl hg.zero (by linarith)
    (draws ω metric method).eb
  rw [he] at g1
  rw [f2] at g2
  simp only [Except.ok.injEq, Prod.mk.injEq, Flt.fin.injEq] at g1 g2
  obtain ⟨rfl, rfl⟩ := g1
  obtain ⟨-, g2⟩ := g2
  refine ⟨_, eR, f1, g2, ?_⟩
  have hmean := (C111_mean hA.nonneg hA.rnd hL.sum hne (by rwa [hlen])).trans
    (mul_le_mul_of_nonneg_left (C111_scale hne hw) (mul_nonneg (by norm_num) (mul_nonneg (by positivity) hA.nonneg)))
  rw [hlen] at g4 hmean
  have ha1 : 1 < Real.log (3 / (1 - c)) := one_lt_log_three.trans (log_pos_conf h0 h1).1
  have hB : 0 ≤ max |l| |h| := (abs_nonneg l).trans (le_max_left _ _)
  have t1 : 2 * (n * u) * max |l| |h| ≤ 2 * (n * u) * (Real.log (3 / (1 - c)) * max |l| |h|) :=
    mul_le_mul_of_nonneg_left (by nlinarith) (by positivity)
  have t2 := abs_sub_le (meanR L (observed X ω)) (avg (observed X ω)) mX
  have t3 : |avg (observed X ω) - mX| ≤ e := abs_le.2 ⟨by linarith [hcov.2], by linarith [hcov.1]⟩
  have t4 := (abs_le.1 g4).1
  linarith

/-- **C135, pairwise error bars.**  In floating point, with `pairwise_CI`: with probability at least the confidence the true difference in
expected loss is within the error bar of the difference of the two means that the table shows, up to rounding. -/
theorem C135_pairwise (hL : GoodLib L) (hA : AccurateLib u L) (hr : RandomLosses P tbl metric method refMethod limits l h X Y mX mY)
    (hmr : method ≠ refMethod) (hn : n * u ≤ 1 / 1000000) {c : ℝ} (h0 : 0 < c) (h1 : c < 1) {draws : Ω → Str → Str → Draws}
    {out : Ω → List (List (Flt ℝ × Flt ℝ × Flt ℝ))}
    (ho : ∀ ω, lossSummaryTableR L (tbl ω) refMethod true (.fin c) .bernstein limits (draws ω) = .ok (out ω))
    {cell cellRef : Ω → Flt ℝ × Flt ℝ × Flt ℝ} (hc : ∀ ω, SummaryCell (tbl ω) (out ω) metric method (cell ω))
    (hcr : ∀ ω, SummaryCell (tbl ω) (out ω) metric refMethod (cellRef ω)) :
    Likely P c {ω | ∃ mu muRef e : ℝ, (cell ω).1 = .fin mu ∧ (cellRef ω).1 = .fin muRef ∧ (cell ω).2.1 = .fin e ∧
      |(mu - muRef) - (mX - mY)| ≤ e + (4 * (n * u) * max |l| |h| + 138 * (n * u) * (Real.log (3 / (1 - c)) * (h - l)))} := by
  have hg := gradual_of_relError hL.rnd hL.double hA.nonneg hA.rnd
  have hu := hA.nonneg
  have hlh := hr.le
  refine (C93_mean_and_EB studentT hr.rows (X := fun i ω => X i ω - Y i ω) (fun i => (hr.measX i).sub (hr.measY i)) hr.indepD
    (l := -(h - l)) (u := h - l) (by linarith) hr.boundD hr.meanD h0 h1 le_rfl (by linarith)
    fun ω => (draws ω metric method).eb).2.mono ?_
  rintro ω ⟨mu, e, he, hcov⟩
  have hlen : (observed X ω).length = n := observed_length X ω
  have hlenY : (observed Y ω).length = n := observed_length Y ω
  have hlenD : (observed (fun i ω => X i ω - Y i ω) ω).length = n := observed_length _ ω
  have hne := observed_ne_nil hr.rows X ω
  have hneY := observed_ne_nil hr.rows Y ω
  have hneD := observed_ne_nil hr.rows (fun i ω => X i ω - Y i ω) ω
  have hw := observed_within hr.boundX ω
  have hwY := observed_within hr.boundY ω
  have hwD := observed_within hr.boundD ω
  obtain ⟨f1, -, f3⟩ := summaryCellR (by simp) (ho ω) (hc ω) hr.limits (hr.meth ω) (hr.ref ω) hne
  obtain ⟨r1, -, -⟩ := summaryCellR (by simp) (ho ω) (hcr ω) hr.limits (hr.ref ω) (hr.ref ω) hneY
  obtain ⟨m, f3⟩ := f3 rfl hmr
  rw [observed_sub] at f3
  simp only [Flt.sub_fin, Flt.neg_fin, rF] at f3
  obtain ⟨muR, e', eR, g1, g2, g4⟩ := pair_bernstein hneD hwD (rnd_sym_within hL hwD) (by rwa [hlenD]) h0 h1 hL hA studentT (draws ω metric method).eb
  rw [he] at g1
  rw [f3] at g2
  simp only [Except.ok.injEq, Prod.mk.injEq, Flt.fin.injEq] at g1 g2
  obtain ⟨rfl, rfl⟩ := g1
  obtain ⟨-, g2⟩ := g2
  refine ⟨_, _, eR, f1, r1, g2, ?_⟩
  have hmean := (C111_mean hA.nonneg hA.rnd hL.sum hne (by rwa [hlen])).trans
    (mul_le_mul_of_nonneg_left (C111_scale hne hw) (mul_nonneg (by norm_num) (mul_nonneg (by positivity) hA.nonneg)))
  have hmeanY := (C111_mean hA.nonneg hA.rnd hL.sum hneY (by rwa [hlenY])).trans
    (mul_le_mul_of_nonneg_left (C111_scale hneY hwY) (mul_nonneg (by norm_num) (mul_nonneg (by positivity) hA.nonneg)))
  rw [hlen] at hmean
  rw [hlenY] at hmeanY
  rw [hlenD] at g4
  have hmu : avg (observed (fun i ω => X i ω - Y i ω) ω) = avg (observed X ω) - avg (observed Y ω) := by
    simp only [observed_avg, Finset.sum_sub_distrib, sub_div]
  rw [hmu] at hcov
  have t4 := (abs_le.1 g4).1
  have a1 := abs_le.1 hmean
  have a2 := abs_le.1 hmeanY
  rw [abs_le]
  constructor <;> linarith [a1.1, a1.2, a2.1, a2.2, hcov.1, hcov.2]

/-- **C135, t for normal losses.**  A metric without limits whose losses are the floats nearest to independent normal numbers: in floating point
with method `'t'`, without `pairwise_CI`, with probability at least the confidence the expectation of the normal numbers is within the error bar
of the mean that the table shows, up to rounding. -/
theorem C135_t (hL : GoodLib L) (hA : AccurateLib u L) (hn2 : 2 ≤ n) (hlim : LimitsOf limits metric .ninf .pinf)
    (hX : ∀ ω, HasLoss (tbl ω) metric method (finVec ((observed X ω).map L.rnd)))
    (hY : ∀ ω, HasLoss (tbl ω) metric refMethod (finVec (observed Y ω)))
    {v : ℝ≥0} (h : NormalSample P X mX v) (hn : n * u ≤ 1 / 1000000) {c : ℝ} (h0 : 0 < c) (h1 : c < 1)
    {q : ℝ} (hq : q = (studentT (n - 1)).ppf ((1 + c) / 2)) (hqa : AccurateQuantile u L n c q)
    {draws : Ω → Str → Str → Draws} {out : Ω → List (List (Flt ℝ × Flt ℝ × Flt ℝ))}
    (ho : ∀ ω, lossSummaryTableR L (tbl ω) refMethod false (.fin c) .t limits (draws ω) = .ok (out ω))
    {cell : Ω → Flt ℝ × Flt ℝ × Flt ℝ} (hc : ∀ ω, SummaryCell (tbl ω) (out ω) metric method (cell ω)) :
    Likely P c {ω | ∃ mu e : ℝ, (cell ω).1 = .fin mu ∧ (cell ω).2.1 = .fin e ∧
      |mu - mX| ≤ e + (3 * (n * u) * avgAbs (observed X ω) +
        q * (n * u) * (15 * stdErr (observed X ω) + 7 * (avgAbs (observed X ω) / Real.sqrt n)))} := by
  have hu := hA.nonneg
  refine (C95_mean_and_EB hn2 h h0 h1 fun ω => (draws ω metric method).eb).likely.mono ?_
  rintro ω ⟨mu, e, he, hcov⟩
  have hlen : (observed X ω).length = n := observed_length X ω
  have hne := observed_ne_nil (by omega) X ω
  have hne' : (observed X ω).map L.rnd ≠ [] := by simpa using hne
  obtain ⟨f1, f2, -⟩ := summaryCellR (by simp) (ho ω) (hc ω) hlim (hX ω) (hY ω) hne'
  obtain ⟨m, f2⟩ := f2 rfl
  subst hq
  obtain ⟨muR, e', eR, g1, g2, g4⟩ := pair_t_open hL hA (T := studentT) (ds := observed X ω) (by rwa [hlen]) (by rwa [hlen]) h0 h1
    (draws ω metric method).eb (studentT_isSymmetric (by omega)) (by rwa [hlen])
  rw [he] at g1
  rw [f2] at g2
  simp only [Except.ok.injEq, Prod.mk.injEq, Flt.fin.injEq] at g1 g2
  obtain ⟨rfl, rfl⟩ := g1
  obtain ⟨-, g2⟩ := g2
  refine ⟨_, eR, f1, g2, ?_⟩
  have hmean := C111_mean hA.nonneg hA.rnd hL.sum hne' (by rwa [List.length_map, hlen])
  obtain ⟨p1, p2⟩ := avg_perturb (xs := observed X ω) (f := L.rnd) (u := u) fun x _ => hA.rnd x
  rw [List.length_map] at hmean
  rw [hlen] at g4 hmean
  have hA0 := avgAbs_nonneg (observed X ω)
  have hn2' : (2 : ℝ) ≤ n := by exact_mod_cast hn2
  have hu' : 2 * u ≤ n * u := mul_le_mul_of_nonneg_right hn2' hu
  have t0 : 2 * (n * u) * avgAbs ((observed X ω).map L.rnd) ≤ 2 * (n * u) * ((1 + u) * avgAbs (observed X ω)) :=
    mul_le_mul_of_nonneg_left p2 (by positivity)
  have t5 : u * avgAbs (observed X ω) ≤ n * u / 2 * avgAbs (observed X ω) := mul_le_mul_of_nonneg_right (by linarith) hA0
  have t6 : (n * u) * u * avgAbs (observed X ω) ≤ (n * u) * (1 / 4) * avgAbs (observed X ω) :=
    mul_le_mul_of_nonneg_right (mul_le_mul_of_nonneg_left (by linarith) (by positivity)) hA0
  have t4 := (abs_le.1 g4).1
  have a1 := abs_le.1 hmean
  have a2 := abs_le.1 p1
  rw [abs_le]
  constructor <;> linarith [a1.1, a1.2, a2.1, a2.2, hcov.1, hcov.2]

end

end Mlp.Props
