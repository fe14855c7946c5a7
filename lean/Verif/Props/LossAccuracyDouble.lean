import Verif.Props.LossAccuracy
import Verif.Props.LossDouble
import Mathlib.Algebra.Order.Chebyshev

/-! # Property C125: accuracy of the classification losses in double precision -/

namespace Mlp.Props
open Mlp.Util Mlp.Frame Mlp.PerfR Mlp.PaperR Mlp.CurveR Mlp.LossR Mlp.Spec Mlp.Lemmas Mlp.Round Mlp.Classif

/-- Double precision rounds everything within half a unit in the last place. -/
theorem doubleLib_accurate : AccurateLib (1 / 2 ^ 53) doubleLib where
  nonneg := by norm_num
  rnd := binary64_relError
  exp x := by
    have := binary64_relError (K := ℝ) (Real.exp x)
    rwa [abs_of_pos (Real.exp_pos x)] at this
  log x _ := binary64_relError (K := ℝ) (Real.log x)
  sqrt x _ := by
    have := binary64_relError (K := ℝ) (Real.sqrt x)
    rwa [abs_of_nonneg (Real.sqrt_nonneg x)] at this

theorem sumSq_le_sum {q : List ℝ} (h : ∀ v ∈ q, 0 ≤ v) : sumSq q ≤ q.sum ^ 2 := by
  have hs : ∀ k ∈ Finset.range q.length, 0 ≤ pr q k := fun k _ => pr_nonneg h k
  rw [sum_range, sumSq, sq, Finset.sum_mul]
  refine Finset.sum_le_sum fun k hk => ?_
  rw [sq]
  exact mul_le_mul_of_nonneg_left (Finset.single_le_sum hs hk) (hs k hk)

theorem sum_le_sumSq (q : List ℝ) : q.sum ^ 2 ≤ q.length * sumSq q := by
  rw [sum_range, sumSq]
  have := sq_sum_le_card_mul_sum_sq (s := Finset.range q.length) (f := fun k => pr q k)
  rwa [Finset.card_range] at this

theorem brierAt_le {q : List ℝ} (h : ∀ v ∈ q, 0 ≤ v) (k : Nat) : brierAt q k ≤ sumSq q + 1 := by
  unfold brierAt sumSq
  have h1 : ∀ j ∈ Finset.range q.length, (pr q j - if j = k then 1 else 0) ^ 2 ≤ pr q j ^ 2 + if j = k then 1 else 0 := by
    intro j _
    have := pr_nonneg h j
    split <;> nlinarith
  refine le_trans (Finset.sum_le_sum h1) ?_
  rw [Finset.sum_add_distrib, Finset.sum_ite_eq']
  split <;> linarith

theorem log_norm_bound {q : List ℝ} (h : ∀ v ∈ q, 0 ≤ v) (hn : q.length ≤ 1000) (h1 : 1 / 2 ≤ q.sum) (h2 : q.sum ≤ 2) :
    |Real.log (norm2 q)| ≤ 63 := by
  have hS1 := sumSq_le_sum h
  have hS2 := sum_le_sumSq q
  have hn' : (q.length : ℝ) ≤ 1000 := by exact_mod_cast hn
  have hS0 : 0 ≤ sumSq q := Finset.sum_nonneg fun k _ => sq_nonneg _
  have h3 : (1 / 64 : ℝ) ≤ norm2 q := by
    refine Real.le_sqrt_of_sq_le ?_
    nlinarith
  have h4 : norm2 q ≤ 2 := by
    refine Real.sqrt_le_iff.2 ⟨by norm_num, ?_⟩
    nlinarith
  have hp : 0 < norm2 q := by linarith
  rw [abs_le]
  constructor
  · have h5 := Real.add_one_le_exp (-Real.log (norm2 q))
    rw [Real.exp_neg, Real.exp_log hp] at h5
    have h6 : (norm2 q)⁻¹ ≤ 64 := by
      rw [inv_le_comm₀ hp (by norm_num)]; linarith
    linarith
  · have := Real.log_le_sub_one_of_pos hp
    linarith

theorem brierScale_le (b : Bool) (n : Nat) : brierScale b n ≤ 2 := by
  unfold brierScale
  split
  · rename_i h
    have : (2 : ℝ) ≤ n := by exact_mod_cast h.2
    rw [div_le_iff₀ (by linarith)]
    linarith
  · norm_num

theorem sphereScale_ge (n : Nat) : 2 / 7 ≤ sphereScale n := by
  unfold sphereScale
  split
  · rename_i h
    have hn : (2 : ℝ) ≤ n := by exact_mod_cast h
    have hs1 : (7 / 5 : ℝ) ≤ Real.sqrt n := Real.le_sqrt_of_sq_le (by norm_num; linarith)
    have : 1 / Real.sqrt n ≤ 5 / 7 := by rw [div_le_iff₀ (by linarith)]; linarith
    linarith
  · norm_num

/-- **C125, double precision.**  With up to 1000 labels and probabilities whose sum is between one half and two (normalised or not quite), every
Brier loss and every spherical loss computed in double precision differs from the exact one by at most `10^-11`. -/
theorem C125_double {y : LabelVec} {p : Mat ℝ} (h : ClassInput y p) (hz : ∀ r ∈ p.rows, AtMostZero r)
    (hf : ∀ r ∈ p.rows, FloatRow binary64 r) (hn : p.ncols ≤ 1000)
    (hs : ∀ r ∈ p.rows, 1 / 2 ≤ (probs r).sum ∧ (probs r).sum ≤ 2) (rescale : Bool) :
    (∃ l, brierLossR doubleLib rescale y p = .ok l ∧ PerSample (fun r k v => ∃ x : ℝ, v = .fin x ∧
      |x - brierScale rescale p.ncols * brierAt (probs r) k| ≤ 1 / 10 ^ 11) y p l) ∧
    (∃ l, sphericalLossR doubleLib rescale y p = .ok l ∧ PerSample (fun r k v => ∃ x : ℝ, v = .fin x ∧
      |x - sphereAt rescale p.ncols (probs r) k| ≤ 1 / 10 ^ 11) y p l) := by
  have hn' : (p.ncols : ℝ) ≤ 1000 := by exact_mod_cast hn
  have hn0 : (0 : ℝ) ≤ p.ncols := by positivity
  have hnu : (p.ncols : ℝ) * (1 / 2 ^ 53) ≤ 1 / 100 := by
    calc (p.ncols : ℝ) * (1 / 2 ^ 53) ≤ 1000 * (1 / 2 ^ 53) := by gcongr
      _ ≤ 1 / 100 := by norm_num
  have hpr : ∀ r ∈ p.rows, Proper r := by
    intro r hr
    have hl := atMostZero_logProbs (hz r hr)
    refine ⟨hl, ?_⟩
    by_contra hno
    have : (probs r).sum = 0 := by
      apply List.sum_eq_zero
      intro v hv
      obtain ⟨w, hw, rfl⟩ := List.mem_map.1 hv
      rcases hz r hr w hw with rfl | ⟨x, -, rfl⟩
      · rfl
      · exact absurd ⟨x, hw⟩ hno
    have := (hs r hr).1
    linarith
  have hlog : ∀ r ∈ p.rows, |Real.log (norm2 (probs r))| ≤ 63 := fun r hr =>
    log_norm_bound (probs_nonneg r) (by rw [probs_length, h.rows r hr]; exact hn) (hs r hr).1 (hs r hr).2
  constructor
  · obtain ⟨l, hl, h1⟩ := C125_brier doubleLib_good doubleLib_expLog doubleLib_accurate h hz hnu rescale
    refine ⟨l, hl, perSample_mono h1 ?_⟩
    rintro r hr k v ⟨x, hv, hx⟩
    refine ⟨x, hv, le_trans hx ?_⟩
    have b1 := brierAt_le (probs_nonneg r) k
    have b2 := sumSq_le_sum (probs_nonneg r)
    have b3 := hs r hr
    have b4 : brierAt (probs r) k ≤ 5 := by nlinarith
    have b0 : 0 ≤ brierAt (probs r) k := Finset.sum_nonneg fun j _ => sq_nonneg _
    calc brierScale rescale p.ncols * (p.ncols * (1 / 2 ^ 53) * (7 + 4 * brierAt (probs r) k))
        ≤ 2 * (1000 * (1 / 2 ^ 53) * (7 + 4 * 5)) := by
          gcongr
          · exact brierScale_le _ _
      _ ≤ 1 / 10 ^ 11 := by norm_num
  · obtain ⟨h1, h2⟩ := C125_sphere doubleLib_good doubleLib_expLog doubleLib_accurate h hpr hf hnu (by
      intro r hr
      have := hlog r hr
      calc 1 / 2 ^ 53 * |Real.log (norm2 (probs r))| ≤ 1 / 2 ^ 53 * 63 := by gcongr
        _ ≤ 1 / 50 := by norm_num)
    cases rescale
    · obtain ⟨l, hl, h3⟩ := h1
      refine ⟨l, hl, perSample_mono h3 ?_⟩
      rintro r hr k v ⟨x, hv, hx⟩
      refine ⟨x, hv, ?_⟩
      simp only [sphereAt, Bool.false_eq_true, if_false]
      refine le_trans hx ?_
      have := hlog r hr
      calc 1 / 2 ^ 53 * (10 * (p.ncols : ℝ) + 6 * |Real.log (norm2 (probs r))|) ≤ 1 / 2 ^ 53 * (10 * 1000 + 6 * 63) := by gcongr
        _ ≤ 1 / 10 ^ 11 := by norm_num
    · obtain ⟨l, hl, h3⟩ := h2
      refine ⟨l, hl, perSample_mono h3 ?_⟩
      rintro r hr k v ⟨x, hv, hx⟩
      refine ⟨x, hv, ?_⟩
      simp only [sphereAt, if_true]
      refine le_trans hx ?_
      have := hlog r hr
      calc 1 / 2 ^ 53 * (24 * (p.ncols : ℝ) + 7 * |Real.log (norm2 (probs r))|) / sphereScale p.ncols
          ≤ 1 / 2 ^ 53 * (24 * 1000 + 7 * 63) / (2 / 7) := by
            have := sphereScale_ge p.ncols
            gcongr
        _ ≤ 1 / 10 ^ 11 := by norm_num

/-! ## Concrete cases -/

/-- Two samples, three labels, one of them impossible. -/
example : ∃ q, normalizeRowsR doubleLib threeRows = .ok q ∧ ∀ r ∈ q.rows, |(probs r).sum - 1| ≤ 1 / 10 ^ 14 := by
  obtain ⟨q, hq, h⟩ := C125_sum_one doubleLib_good doubleLib_expLog doubleLib_accurate (p := threeRows) (by simp [threeRows])
    (fun r hr => ⟨threeRows_proper r hr, by
      simp only [threeRows, List.mem_cons, List.not_mem_nil, or_false] at hr
      rcases hr with rfl | rfl <;> rfl⟩) (by norm_num [threeRows]) (by
      intro r hr x hx
      simp only [threeRows, List.mem_cons, List.not_mem_nil, or_false] at hr
      rcases hr with rfl | rfl <;> simp at hx
      · rcases hx with rfl | rfl <;> norm_num [abs_div]
      · rw [hx]; norm_num)
  refine ⟨q, hq, fun r' hr' => ?_⟩
  obtain ⟨r, hr, h1⟩ : ∃ r ∈ threeRows.rows, |(probs r').sum - 1| ≤ 1 / 2 ^ 53 * (10 * threeRows.ncols + 3 * |logTotal r|) := by
    obtain ⟨i, hi, rfl⟩ := List.mem_iff_getElem.1 hr'
    have hi' : i < threeRows.rows.length := by rw [h.length_eq]; exact hi
    exact ⟨_, List.getElem_mem hi', (List.forall₂_iff_get.1 h).2 i hi' hi⟩
  refine le_trans h1 ?_
  have hb := logTotal_bounds (threeRows_proper r hr)
  have h2 : |logTotal r| ≤ 2 := by
    simp only [threeRows, List.mem_cons, List.not_mem_nil, or_false] at hr
    rcases hr with rfl | rfl
    · have a1 := hb.1 (-1 / 2) (by simp)
      have a2 := hb.2 0 (by intro x hx; simp at hx; rcases hx with rfl | rfl <;> norm_num)
      norm_num at a2
      rw [abs_le]; constructor <;> linarith
    · have a1 := hb.1 0 (by simp)
      have a2 := hb.2 0 (by intro x hx; simp at hx; rw [hx])
      norm_num at a2
      rw [abs_le]; constructor <;> linarith
  have h3 : ((threeRows.ncols : ℕ) : ℝ) = 3 := by norm_num [threeRows]
  rw [h3]
  calc 1 / 2 ^ 53 * (10 * 3 + 3 * |logTotal r|) ≤ 1 / 2 ^ 53 * (10 * 3 + 3 * 2) := by gcongr
    _ ≤ 1 / 10 ^ 14 := by norm_num

/-- Their probabilities add up to about 0.74 and 1. -/
theorem threeRows_sum : ∀ r ∈ threeRows.rows, 1 / 2 ≤ (probs r).sum ∧ (probs r).sum ≤ 2 := by
  intro r hr
  simp only [threeRows, List.mem_cons, List.not_mem_nil, or_false] at hr
  rcases hr with rfl | rfl
  · have h1 := Real.add_one_le_exp (-1 / 2 : ℝ)
    have h2 : Real.exp (-1 / 2 : ℝ) ≤ 1 := Real.exp_le_one_iff.2 (by norm_num)
    have h3 : Real.exp (-2 : ℝ) ≤ 1 := Real.exp_le_one_iff.2 (by norm_num)
    have h4 := Real.exp_pos (-2 : ℝ)
    simp only [probs, List.map_cons, List.map_nil, prob, List.sum_cons, List.sum_nil]
    constructor <;> linarith
  · simp only [probs, List.map_cons, List.map_nil, prob, List.sum_cons, List.sum_nil, Real.exp_zero]
    constructor <;> norm_num

example (rescale : Bool) : ∃ l, brierLossR doubleLib rescale ⟨'i', [1, 0]⟩ threeRows = .ok l ∧ l.length = 2 := by
  obtain ⟨⟨l, h, h1⟩, -⟩ := C125_double threeRows_input threeRows_zero threeRows_float (by simp [threeRows]) threeRows_sum rescale
  exact ⟨l, h, h1.1⟩

/-- A `JustNoise` fit without pseudo-counts, one label never seen. -/
example : ∃ pred, justNoiseFitR doubleLib 3 0 ⟨'i', [1, 0, 1]⟩ = .ok pred ∧ pred[2]? = some .ninf ∧
    ∃ x : ℝ, pred[1]? = some (.fin x) ∧ |x - Real.log (2 / 3)| ≤ 1 / 10 ^ 14 := by
  obtain ⟨pred, h, -, h1⟩ := C125_noise doubleLib_good doubleLib_accurate (by norm_num) (y := ⟨'i', [1, 0, 1]⟩) (n := 3)
    ⟨by simp, rfl, by simp⟩ (by simp) (pseudo := 0) le_rfl
  refine ⟨pred, h, (h1 2 (by norm_num)).1 (by simp), ?_⟩
  obtain ⟨x, hx, hb⟩ := (h1 1 (by norm_num)).2 (by norm_num)
  refine ⟨x, hx, ?_⟩
  norm_num at hb
  refine le_trans hb ?_
  have : |Real.log (2 / 3)| ≤ 1 := by
    have a1 := Real.log_le_sub_one_of_pos (show (0 : ℝ) < 2 / 3 by norm_num)
    have a2 := Real.add_one_le_exp (-Real.log (2 / 3))
    rw [Real.exp_neg, Real.exp_log (by norm_num)] at a2
    rw [abs_le]; constructor <;> linarith
  linarith

end Mlp.Props
