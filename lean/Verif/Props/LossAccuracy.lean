import Verif.Props.LogSumExpRound
import Verif.Props.ClassNoise
import Verif.Props.RegrRound

/-! # Property C125: accuracy of the classification losses and of `JustNoise` in floating point -/

namespace Mlp.Props
open Mlp.Util Mlp.Frame Mlp.PerfR Mlp.PaperR Mlp.CurveR Mlp.LossR Mlp.Spec Mlp.Lemmas Mlp.Round Mlp.Classif

variable {L : Lib ℝ} {u : ℝ}

/-! ## Brier loss -/

/-- A computed term of the Brier loss. -/
theorem brierTerm_error (hL : GoodLib L) (hE : GoodExpLog L) (hA : AccurateLib u L) {v : Flt ℝ}
    (hv : v = .ninf ∨ ∃ x : ℝ, x ≤ 0 ∧ v = .fin x) {b : ℝ} (hb : b = 0 ∨ b = 1) :
    |L.rnd (L.rnd (probR L v - b) * L.rnd (probR L v - b)) - (prob v - b) ^ 2| ≤ 5 * u := by
  have hu := hA.nonneg
  have hq : |probR L v - prob v| ≤ u ∧ 0 ≤ probR L v ∧ probR L v ≤ 1 ∧ 0 ≤ prob v ∧ prob v ≤ 1 := by
    rcases hv with rfl | ⟨x, hx, rfl⟩
    · simp [probR, prob, hu]
    · have h1 := hA.exp x
      have h2 : Real.exp x ≤ 1 := Real.exp_le_one_iff.2 hx
      refine ⟨?_, hL.exp_nonneg x, hE.exp_le_one x hx, (Real.exp_pos x).le, h2⟩
      show |L.exp x - Real.exp x| ≤ u
      nlinarith
  obtain ⟨h1, h2, h3, h4, h5⟩ := hq
  set P := probR L v
  set q := prob v
  have ha : -1 ≤ P - b ∧ P - b ≤ 1 := by rcases hb with rfl | rfl <;> constructor <;> linarith
  have hc : -1 ≤ q - b ∧ q - b ≤ 1 := by rcases hb with rfl | rfl <;> constructor <;> linarith
  set d := L.rnd (P - b) with hd
  have hd1 : -1 ≤ d ∧ d ≤ 1 := by
    have a1 := hL.rnd.mono ha.1
    have a2 := hL.rnd.mono ha.2
    rw [hL.rnd.neg, hL.rnd.one] at a1
    rw [hL.rnd.one] at a2
    exact ⟨a1, a2⟩
  have hdd : |d - (q - b)| ≤ 2 * u := by
    have e1 := hA.rnd (P - b)
    have e2 : |P - b| ≤ 1 := abs_le.2 ha
    have e3 : u * |P - b| ≤ u := by nlinarith [abs_nonneg (P - b)]
    have e4 := abs_sub_le d (P - b) (q - b)
    rw [show P - b - (q - b) = P - q by ring] at e4
    linarith
  have h6 : |d * d - (q - b) ^ 2| ≤ 4 * u := by
    rw [show d * d - (q - b) ^ 2 = (d - (q - b)) * (d + (q - b)) by ring, abs_mul]
    have : |d + (q - b)| ≤ 2 := abs_le.2 ⟨by linarith, by linarith⟩
    have := mul_le_mul hdd this (abs_nonneg _) (by linarith)
    linarith
  have h7 := hA.rnd (d * d)
  have h8 : |d * d| ≤ 1 := by rw [abs_of_nonneg (mul_self_nonneg d)]; nlinarith
  have h9 : u * |d * d| ≤ u := by nlinarith [abs_nonneg (d * d)]
  have := abs_sub_le (L.rnd (d * d)) (d * d) ((q - b) ^ 2)
  linarith

theorem brierAt_list (r : List (Flt ℝ)) (k : Nat) : brierAt (probs r) k =
    ((List.range r.length).map fun j => (prob (r.getD j .nan) - if j = k then 1 else 0) ^ 2).sum := by
  unfold brierAt
  rw [probs_length, Finset.sum_range]
  rw [← List.sum_ofFn, List.ofFn_eq_map]
  congr 1
  apply List.ext_getElem
  · simp
  · intro i h1 h2
    have hi : i < r.length := by simpa using h2
    simp [pr_probs, hi]

/-- **C125, Brier loss.**  For log-probabilities up to 0 the error of every Brier loss is at most `n u (7 + 4 b)` times the factor `n/(n-1)`
of the rescaled loss (1 if not rescaled), `b` being the exact loss before rescaling; `b` is at most 2 for a distribution. -/
theorem C125_brier (hL : GoodLib L) (hE : GoodExpLog L) (hA : AccurateLib u L) {y : LabelVec} {p : Mat ℝ} (h : ClassInput y p)
    (hp : ∀ r ∈ p.rows, AtMostZero r) (hn : p.ncols * u ≤ 1 / 100) (rescale : Bool) :
    ∃ l, brierLossR L rescale y p = .ok l ∧ PerSample (fun r k v => ∃ x : ℝ, v = .fin x ∧
      |x - brierScale rescale p.ncols * brierAt (probs r) k| ≤
        brierScale rescale p.ncols * (p.ncols * u * (7 + 4 * brierAt (probs r) k))) y p l := by
  obtain ⟨l, hl, hs⟩ := brierR_eq (L := L) h (fun r hr => atMostZero_logProbs (hp r hr)) rescale
  refine ⟨l, hl, perSample_mono hs ?_⟩
  rintro r hr k v rfl
  refine ⟨_, rfl, ?_⟩
  have hu := hA.nonneg
  have hn1 : (1 : ℝ) ≤ p.ncols := by exact_mod_cast h.labels
  have hu1 : u ≤ 1 / 100 := by nlinarith
  have hlen := h.rows r hr
  set n : ℝ := (p.ncols : ℝ) with hnd
  have hnu : 0 ≤ n * u := mul_nonneg (by linarith) hu
  set B := brierAt (probs r) k with hB
  have hB0 : 0 ≤ B := Finset.sum_nonneg fun j _ => sq_nonneg _
  set T := (brierTerms L r k).sum with hT
  have hTB : |T - B| ≤ n * (5 * u) := by
    rw [hB, brierAt_list, hT]
    have := list_sum_error (List.range r.length)
      (fun j => L.rnd (L.rnd (probR L (r.getD j .nan) - if j = k then 1 else 0) * L.rnd (probR L (r.getD j .nan) - if j = k then 1 else 0)))
      (fun j => (prob (r.getD j .nan) - if j = k then 1 else 0) ^ 2) (c := 5 * u) (by
        intro j hj
        refine brierTerm_error hL hE hA (hp r hr _ (getD_mem (List.mem_range.1 hj))) ?_
        by_cases hjk : j = k
        · right; rw [if_pos hjk]
        · left; rw [if_neg hjk])
    rw [List.length_range] at this
    rw [hnd, ← hlen]
    exact this
  have ht := brierTerms_range hL hE (hp r hr) k
  have hT0 : 0 ≤ T := List.sum_nonneg fun t h => (ht t h).1
  have hblen : (brierTerms L r k).length = p.ncols := by simp [brierTerms, hlen]
  have hbne : brierTerms L r k ≠ [] := by
    intro e; rw [e] at hblen
    have := h.labels
    simp only [List.length_nil] at hblen
    omega
  set W := L.sum (brierTerms L r k) with hW
  have hW0 : 0 ≤ W := sum_nonneg_of_trees hL.rnd hL.sum fun t h => (ht t h).1
  have hWT : |W - T| ≤ 2 * (n * u) * T := by
    have h1 := sum_error_signed hu hA.rnd hL.sum hbne
    have e : ((brierTerms L r k).map fun v => |v|).sum = T := by
      rw [hT]
      congr 1
      conv_rhs => rw [← List.map_id (brierTerms L r k)]
      exact List.map_congr_left fun v hv => abs_of_nonneg (ht v hv).1
    rw [e, hblen] at h1
    refine le_trans h1 (mul_le_mul_of_nonneg_right ?_ hT0)
    have h2 := pow_one_add_le hu (n := p.ncols) (by linarith)
    have h3 : (1 + u) ^ (p.ncols - 1) ≤ (1 + u) ^ p.ncols := pow_le_pow_right₀ (by linarith) (by omega)
    linarith
  have hWB : |W - B| ≤ n * u * (6 + 2 * B) := by
    have h1 := abs_sub_le W T B
    have hx := abs_le.1 hTB
    have h2 : 2 * (n * u) * T ≤ 2 * (n * u) * (B + n * (5 * u)) := mul_le_mul_of_nonneg_left (by linarith) (by linarith)
    have h3 : (n * u) * (n * u) ≤ 1 / 100 * (n * u) := mul_le_mul_of_nonneg_right hn hnu
    nlinarith
  unfold scaleBrier brierScale
  by_cases hc : rescale = true ∧ 1 < p.ncols
  · rw [if_pos hc, if_pos hc]
    have hn2 : (2 : ℝ) ≤ n := by rw [hnd]; exact_mod_cast hc.2
    set c := n / (n - 1) with hcd
    have hcp : 0 < c := div_pos (by linarith) (by linarith)
    obtain ⟨d1, hd1, e1⟩ := relError_factor hA.rnd c
    obtain ⟨d2, hd2, e2⟩ := relError_factor hA.rnd (L.rnd c * W)
    rw [e2, e1]
    have e3 : c * (1 + d1) * W * (1 + d2) - c * B = c * ((W - B) + W * (d1 + d2 + d1 * d2)) := by ring
    rw [e3, abs_mul, abs_of_pos hcp]
    refine mul_le_mul_of_nonneg_left ?_ hcp.le
    have hx := abs_le.1 hWB
    have h4 : |d1 + d2 + d1 * d2| ≤ 21 / 10 * u := by
      have := abs_add_le (d1 + d2) (d1 * d2)
      have h5 := abs_add_le d1 d2
      have h6 : |d1 * d2| ≤ u * (1 / 100) := by
        rw [abs_mul]
        exact mul_le_mul hd1 (le_trans hd2 hu1) (abs_nonneg _) hu
      linarith
    have h5 : |W * (d1 + d2 + d1 * d2)| ≤ W * (21 / 10 * u) := by
      rw [abs_mul, abs_of_nonneg hW0]; exact mul_le_mul_of_nonneg_left h4 hW0
    have h6 := abs_add_le (W - B) (W * (d1 + d2 + d1 * d2))
    have h7 : W ≤ B + n * u * (6 + 2 * B) := by linarith
    have h8 : n * u * (6 + 2 * B) ≤ 1 / 100 * (6 + 2 * B) := mul_le_mul_of_nonneg_right hn (by linarith)
    have h9 : W * (21 / 10 * u) ≤ (B + 1 / 100 * (6 + 2 * B)) * (21 / 10 * u) :=
      mul_le_mul_of_nonneg_right (by linarith) (by linarith)
    have h10 : 2 * u ≤ n * u := mul_le_mul_of_nonneg_right hn2 hu
    have h11 : 2 * u * B ≤ n * u * B := mul_le_mul_of_nonneg_right h10 hB0
    nlinarith
  · rw [if_neg hc, if_neg hc, one_mul, one_mul]
    refine le_trans hWB (mul_le_mul_of_nonneg_left (by linarith) hnu)

/-! ## Spherical loss -/

/-- The share of the true label in the norm, computed. -/
theorem sphereEntry_error (hL : GoodLib L) (hE : GoodExpLog L) (hA : AccurateLib u L) {r : List (Flt ℝ)} (h : Proper r)
    (hf : FloatRow L.rnd r) {k : Nat} (hk : k < r.length) (hn : r.length * u ≤ 1 / 100)
    (hl : u * |Real.log (norm2 (probs r))| ≤ 1 / 50) :
    ∃ x : ℝ, sphereEntry L r k = .fin x ∧ -1 ≤ x ∧ x ≤ 0 ∧
      |x - -(pr (probs r) k / norm2 (probs r))| ≤ u * (10 * r.length + 6 * |Real.log (norm2 (probs r))|) := by
  obtain ⟨x, hx, h0, h1⟩ := sphereEntry_range hL hE h hf hk
  refine ⟨x, hx, h0, h1, ?_⟩
  have hu := hA.nonneg
  have hn1 : (1 : ℝ) ≤ r.length := by
    have : 1 ≤ r.length := by omega
    exact_mod_cast this
  have hu1 : u ≤ 1 / 100 := by nlinarith
  have hnp := norm2_pos h
  set l := Real.log (norm2 (probs r)) with hld
  set n : ℝ := (r.length : ℝ) with hnd
  have hnu : u ≤ n * u := le_mul_of_one_le_left hu hn1
  obtain ⟨e, h2⟩ := doubled_row hL h hf
  obtain ⟨z, hz, hz1⟩ := C125_logsumexp hL hE hA (proper_double h) (by rw [List.length_map]; exact hn)
  have hlt : logTotal (r.map fun v => (Flt.fin 2).mul v) = 2 * l := by
    unfold logTotal
    have : (probs (r.map fun v => (Flt.fin 2).mul v)).sum = sumSq (probs r) := sumSq_probs h.1
    rw [this, hld, norm2, Real.log_sqrt (sumSq_pos h).le]
    ring
  rw [hlt, List.length_map] at hz1
  have habs2 : |2 * l| = 2 * |l| := by rw [abs_mul]; norm_num
  rw [habs2] at hz1
  set hh := L.rnd (1 / 2 * z) with hhd
  have hherr : |hh - l| ≤ u * (4 * n + 3 * |l|) := by
    have a1 := hA.rnd (1 / 2 * z)
    have a2 : |1 / 2 * z - l| ≤ 1 / 2 * (u * (6 * n + 2 * |l|)) := by
      rw [show 1 / 2 * z - l = 1 / 2 * (z - 2 * l) by ring, abs_mul, abs_of_pos (by norm_num : (0 : ℝ) < 1 / 2)]
      exact mul_le_mul_of_nonneg_left hz1 (by norm_num)
    have a3 : |1 / 2 * z| ≤ |l| + 1 / 2 * (u * (6 * n + 2 * |l|)) := by
      have := abs_sub_abs_le_abs_sub (1 / 2 * z) l
      linarith
    have a4 := mul_le_mul_of_nonneg_left a3 hu
    have a5 := abs_sub_le hh (1 / 2 * z) l
    have a6 : u * (u * (6 * n + 2 * |l|)) ≤ u * (1 / 100 * (6 * n + 2 * |l|)) :=
      mul_le_mul_of_nonneg_left (mul_le_mul_of_nonneg_right hu1 (by positivity)) hu
    have a7 : 0 ≤ u * |l| := mul_nonneg hu (abs_nonneg _)
    have a8 : 0 ≤ u * n := mul_nonneg hu (by linarith)
    nlinarith
  unfold sphereEntry at hx
  rw [e, hz] at hx
  have hmul : rF L.rnd ((Flt.fin (1 / 2)).mul (.fin z)) = .fin hh := by simp [rF, hhd]
  rw [hmul] at hx
  have hm := getD_mem (r := r) hk
  have hmp := h.1 _ hm
  rw [pr_probs]
  cases hv : r.getD k .nan with
  | fin v =>
    rw [hv] at hx hm
    have ex : x = -L.exp (L.rnd (v - hh)) := by
      have : (fexpR L (rF L.rnd ((Flt.fin v).sub (.fin hh)))).neg = .fin (-L.exp (L.rnd (v - hh))) := by
        simp [rF, Flt.sub, Flt.neg, Flt.add, sub_eq_add_neg, fexpR]
      rw [this] at hx
      exact (Flt.fin.inj hx).symm
    have eq : prob (Flt.fin v) / norm2 (probs r) = Real.exp (v - l) := by
      rw [Real.exp_sub, hld, Real.exp_log hnp]; rfl
    rw [eq, ex, show -L.exp (L.rnd (v - hh)) - -Real.exp (v - l) = -(L.exp (L.rnd (v - hh)) - Real.exp (v - l)) by ring, abs_neg]
    have hvl : v - l ≤ 0 := by
      have hle : pr (probs r) k / norm2 (probs r) ≤ 1 := (ratio_bounds h hk).2
      rw [pr_probs, hv, eq, Real.exp_le_one_iff] at hle
      exact hle
    set w := L.rnd (v - hh) with hwd
    have hwerr : |w - (v - l)| ≤ u * (5 * n + 4 * |l|) + u * |v - l| := by
      have a1 := hA.rnd (v - hh)
      have a2 : |v - hh - (v - l)| ≤ u * (4 * n + 3 * |l|) := by
        rw [show v - hh - (v - l) = -(hh - l) by ring, abs_neg]; exact hherr
      have a3 : |v - hh| ≤ |v - l| + u * (4 * n + 3 * |l|) := by
        have := abs_sub_abs_le_abs_sub (v - hh) (v - l)
        linarith
      have a4 := mul_le_mul_of_nonneg_left a3 hu
      have a5 := abs_sub_le w (v - hh) (v - l)
      have a6 : u * (u * (4 * n + 3 * |l|)) ≤ u * (1 / 100 * (4 * n + 3 * |l|)) :=
        mul_le_mul_of_nonneg_left (mul_le_mul_of_nonneg_right hu1 (by positivity)) hu
      have a7 : 0 ≤ u * |l| := mul_nonneg hu (abs_nonneg _)
      have a8 : 0 ≤ u * n := mul_nonneg hu (by linarith)
      nlinarith
    have ha0 : 0 ≤ u * (5 * n + 4 * |l|) := mul_nonneg hu (by positivity)
    have ha1 : u * (5 * n + 4 * |l|) ≤ 1 / 4 := by nlinarith
    have hx1 := exp_mixed_error (t := w - (v - l)) hvl ha0 ha1 hu (by linarith) hwerr
    rw [show v - l + (w - (v - l)) = w by ring] at hx1
    have hx2 := hA.exp w
    have hw1 : Real.exp w ≤ 4 / 3 := by
      have b1 := abs_le.1 hwerr
      rw [abs_of_nonpos hvl] at b1
      have b2 : w ≤ 1 / 4 := by nlinarith [b1.2]
      exact le_trans (Real.exp_le_exp.2 b2) exp_quarter
    have hx3 : u * Real.exp w ≤ u * (4 / 3) := mul_le_mul_of_nonneg_left hw1 hu
    have := abs_sub_le (L.exp w) (Real.exp w) (Real.exp (v - l))
    have a7 : 0 ≤ u * |l| := mul_nonneg hu (abs_nonneg _)
    nlinarith
  | ninf =>
    rw [hv] at hx
    have : (fexpR L (rF L.rnd (Flt.ninf.sub (.fin hh)))).neg = .fin (-0) := by
      simp [rF, Flt.sub, Flt.neg, Flt.add, fexpR]
    rw [this] at hx
    have ex := (Flt.fin.inj hx).symm
    rw [ex]
    simp only [prob, zero_div, sub_self, abs_zero]
    exact mul_nonneg hu (by positivity)
  | pinf => exact absurd hv hmp.2
  | nan => exact absurd hv hmp.1

/-- The computed scale of the spherical loss. -/
theorem sphereScale_error (hA : AccurateLib u L) (hu1 : u ≤ 1 / 100) (n : Nat) :
    ∃ t, |t| ≤ 10 * u ∧ sphereScaleR L n = sphereScale n * (1 + t) := by
  have hu := hA.nonneg
  unfold sphereScaleR sphereScale
  split_ifs with hn
  · have hn2 : (2 : ℝ) ≤ n := by exact_mod_cast hn
    set s := Real.sqrt (n : ℝ) with hs
    have hs1 : (7 / 5 : ℝ) ≤ s := Real.le_sqrt_of_sq_le (by norm_num; linarith)
    set c := 1 - 1 / s with hc
    have hc1 : (2 / 7 : ℝ) ≤ c := by
      have : 1 / s ≤ 5 / 7 := by rw [div_le_iff₀ (by linarith)]; linarith
      rw [hc]; linarith
    have h1 := hA.sqrt n (by positivity)
    rw [← hs] at h1
    set S := L.sqrt (n : ℝ) with hS
    have hx := abs_le.1 h1
    have hSp : 0 < S := by nlinarith
    have h2 : |1 / S - 1 / s| ≤ 1 / s * (11 / 10 * u) := by
      have e : 1 / S - 1 / s = 1 / s * ((s - S) / S) := by field_simp
      rw [e, abs_mul, abs_of_pos (by positivity : 0 < 1 / s)]
      refine mul_le_mul_of_nonneg_left ?_ (by positivity)
      rw [abs_div, abs_of_pos hSp, div_le_iff₀ hSp, abs_sub_comm]
      nlinarith
    have h3 : 1 / s ≤ 5 / 7 := by rw [div_le_iff₀ (by linarith)]; linarith
    have h3' : 0 < 1 / s := by positivity
    have h4 := hA.rnd (1 / S)
    have h5 : |1 / S| ≤ 3 / 4 := by
      have := abs_sub_abs_le_abs_sub (1 / S) (1 / s)
      rw [abs_of_pos h3'] at this
      nlinarith
    set a := L.rnd (1 / S) with ha
    have h6 : |a - 1 / s| ≤ 8 / 5 * u := by
      have := abs_sub_le a (1 / S) (1 / s)
      nlinarith
    have h7 := hA.rnd (1 - a)
    have h8 : |1 - a| ≤ 11 / 10 := by
      have := abs_le.1 h6
      have hcs : 1 / s = 1 - c := by rw [hc]; ring
      rw [abs_le]; constructor <;> nlinarith
    have h9 : |L.rnd (1 - a) - c| ≤ 27 / 10 * u := by
      have e1 := abs_sub_le (L.rnd (1 - a)) (1 - a) c
      rw [show 1 - a - c = -(a - 1 / s) by rw [hc]; ring, abs_neg] at e1
      nlinarith
    refine ⟨(L.rnd (1 - a) - c) / c, ?_, ?_⟩
    · rw [abs_div, abs_of_pos (by linarith : 0 < c), div_le_iff₀ (by linarith)]
      nlinarith
    · have : c ≠ 0 := by linarith
      field_simp
      ring
  · exact ⟨0, by simp [hu], by simp⟩

/-- **C125, spherical loss.**  The error of every spherical loss is at most `u (10 n + 6 |l|)`, rescaled at most `u (24 n + 7 |l|) / c`, `c`
being the exact scale, `n` the number of labels and `l` the logarithm of the Euclidean norm of the probabilities, which is between `-log n / 2`
and 0 for a distribution. -/
theorem C125_sphere (hL : GoodLib L) (hE : GoodExpLog L) (hA : AccurateLib u L) {y : LabelVec} {p : Mat ℝ} (h : ClassInput y p)
    (hp : ∀ r ∈ p.rows, Proper r) (hf : ∀ r ∈ p.rows, FloatRow L.rnd r) (hn : p.ncols * u ≤ 1 / 100)
    (hl : ∀ r ∈ p.rows, u * |Real.log (norm2 (probs r))| ≤ 1 / 50) :
    (∃ l, sphericalLossR L false y p = .ok l ∧ PerSample (fun r k v => ∃ x : ℝ, v = .fin x ∧
      |x - -(pr (probs r) k / norm2 (probs r))| ≤ u * (10 * p.ncols + 6 * |Real.log (norm2 (probs r))|)) y p l) ∧
    ∃ l, sphericalLossR L true y p = .ok l ∧ PerSample (fun r k v => ∃ x : ℝ, v = .fin x ∧
      |x - (1 - pr (probs r) k / norm2 (probs r)) / sphereScale p.ncols| ≤
        u * (24 * p.ncols + 7 * |Real.log (norm2 (probs r))|) / sphereScale p.ncols) y p l := by
  have key : ∀ (i k : Nat) (r : List (Flt ℝ)), p.rows[i]? = some r → y.vals[i]? = some (k : Int) → k < r.length ∧ r ∈ p.rows := by
    intro i k r hi hk
    have hr := List.mem_of_getElem? hi
    exact ⟨by rw [h.rows r hr]; exact_mod_cast (h.range _ (List.mem_of_getElem? hk)).2, hr⟩
  constructor
  · obtain ⟨l, hl', hs⟩ := sphereR_eq (L := L) h false
    refine ⟨l, hl', hs.1, fun i k r hi hk => ?_⟩
    obtain ⟨v, hv, rfl⟩ := hs.2 i k r hi hk
    obtain ⟨hkn, hr⟩ := key i k r hi hk
    obtain ⟨x, hx, -, -, he⟩ := sphereEntry_error hL hE hA (hp r hr) (hf r hr) hkn (by rw [h.rows r hr]; exact hn) (hl r hr)
    rw [h.rows r hr] at he
    exact ⟨_, hv, x, by simp [hx], he⟩
  · obtain ⟨l, hl', hs⟩ := sphereR_eq (L := L) h true
    refine ⟨l, hl', hs.1, fun i k r hi hk => ?_⟩
    obtain ⟨v, hv, rfl⟩ := hs.2 i k r hi hk
    obtain ⟨hkn, hr⟩ := key i k r hi hk
    obtain ⟨x, hx, hx0, hx1, he⟩ := sphereEntry_error hL hE hA (hp r hr) (hf r hr) hkn (by rw [h.rows r hr]; exact hn) (hl r hr)
    rw [h.rows r hr] at he
    have hu := hA.nonneg
    have hn1 : (1 : ℝ) ≤ p.ncols := by exact_mod_cast h.labels
    have hu1 : u ≤ 1 / 100 := by nlinarith
    have hcR := sphereScaleR_pos hL hE p.ncols
    have hc := sphereScale_pos p.ncols
    obtain ⟨t, ht, et⟩ := sphereScale_error hA hu1 p.ncols
    refine ⟨_, hv, L.rnd (L.rnd (1 + x) / sphereScaleR L p.ncols), by simp [hx, rF, Flt.div, hcR.ne'], ?_⟩
    set c := sphereScale p.ncols
    set q := pr (probs r) k / norm2 (probs r)
    set E := u * (10 * p.ncols + 6 * |Real.log (norm2 (probs r))|) with hEd
    have hE0 : 0 ≤ E := mul_nonneg hu (by positivity)
    obtain ⟨d1, hd1, e1⟩ := relError_factor hA.rnd (1 + x)
    obtain ⟨d2, hd2, e2⟩ := relError_factor hA.rnd (L.rnd (1 + x) / sphereScaleR L p.ncols)
    rw [e2, e1, et]
    have ht' := abs_le.1 ht
    have ht1 : 0 < 1 + t := by linarith [ht'.1]
    have e3 : (1 + x) * (1 + d1) / (c * (1 + t)) * (1 + d2) - (1 - q) / c =
        ((1 + x) * ((1 + d1) * (1 + d2) / (1 + t) - 1) + (x - -q)) / c := by
      field_simp
      ring
    rw [e3, abs_div, abs_of_pos hc]
    refine div_le_div_of_nonneg_right ?_ hc.le
    have h1 : |(1 + d1) * (1 + d2) / (1 + t) - 1| ≤ 14 * u := by
      have e4 : (1 + d1) * (1 + d2) / (1 + t) - 1 = (d1 + d2 + d1 * d2 - t) / (1 + t) := by field_simp; ring
      rw [e4, abs_div, abs_of_pos ht1, div_le_iff₀ ht1]
      have a1 : |d1 + d2 + d1 * d2 - t| ≤ 1201 / 100 * u := by
        have b1 := abs_sub (d1 + d2 + d1 * d2) t
        have b2 := abs_add_le (d1 + d2) (d1 * d2)
        have b3 := abs_add_le d1 d2
        have b4 : |d1 * d2| ≤ u * (1 / 100) := by
          rw [abs_mul]
          exact mul_le_mul hd1 (le_trans hd2 hu1) (abs_nonneg _) hu
        linarith
      have a2 : 14 * u * (9 / 10) ≤ 14 * u * (1 + t) := mul_le_mul_of_nonneg_left (by linarith [ht'.1]) (by linarith)
      linarith
    have h2 : |(1 + x) * ((1 + d1) * (1 + d2) / (1 + t) - 1)| ≤ 14 * u := by
      rw [abs_mul, abs_of_nonneg (by linarith : (0 : ℝ) ≤ 1 + x)]
      have := mul_le_mul (by linarith : 1 + x ≤ 1) h1 (abs_nonneg _) (by norm_num)
      linarith
    have h3 := abs_add_le ((1 + x) * ((1 + d1) * (1 + d2) / (1 + t) - 1)) (x - -q)
    have h4 : u ≤ u * p.ncols := le_mul_of_one_le_right hu hn1
    have h5 : 0 ≤ u * |Real.log (norm2 (probs r))| := mul_nonneg hu (abs_nonneg _)
    rw [hEd] at he
    nlinarith

/-! ## `JustNoise` -/

/-- **C125, `JustNoise`.**  The predicted log-probability of a label is the logarithm of its (smoothed) frequency `f` up to `u (8 + 2 |log f|)`; a
label with frequency 0 gets `-inf`. -/
theorem C125_noise (hL : GoodLib L) (hA : AccurateLib u L) (hu1 : u ≤ 1 / 200) {y : LabelVec} {n : Nat} (h : GoodLabels y n)
    (hne : y.vals ≠ []) {pseudo : ℝ} (hp : 0 ≤ pseudo) :
    ∃ pred, justNoiseFitR L n pseudo y = .ok pred ∧ pred.length = n ∧ ∀ k < n,
      let f : ℝ := ((y.vals.count (k : Int) : ℝ) + pseudo) / ((y.vals.length : ℝ) + (n : ℝ) * pseudo)
      (f = 0 → pred[k]? = some .ninf) ∧
      (f ≠ 0 → ∃ x : ℝ, pred[k]? = some (.fin x) ∧ |x - Real.log f| ≤ u * (8 + 2 * |Real.log f|)) := by
  have hu := hA.nonneg
  have hr := hL.rnd
  have hlen : (1 : ℝ) ≤ y.vals.length := by exact_mod_cast List.length_pos_iff.2 hne
  set M : ℝ := (y.vals.length : ℝ) + (n : ℝ) * pseudo with hM
  have hMp : 0 < M := by positivity
  set N : ℝ := L.rnd ((y.vals.length : ℝ) + L.rnd ((n : ℝ) * pseudo)) with hN
  have hnp : 0 ≤ L.rnd ((n : ℝ) * pseudo) := hr.nonneg (by positivity)
  have hNp : 0 < N := hr.pos _ (by linarith)
  have hNM : |N - M| ≤ 201 / 100 * u * M := by
    have h1 := hA.rnd ((n : ℝ) * pseudo)
    have h2 := hA.rnd ((y.vals.length : ℝ) + L.rnd ((n : ℝ) * pseudo))
    have hnp' : 0 ≤ (n : ℝ) * pseudo := by positivity
    rw [abs_of_nonneg hnp'] at h1
    rw [abs_of_nonneg (by linarith : 0 ≤ (y.vals.length : ℝ) + L.rnd ((n : ℝ) * pseudo)), ← hN] at h2
    set a := L.rnd ((n : ℝ) * pseudo)
    have hx1 := abs_le.1 h1
    have hx2 := abs_le.1 h2
    have hle : (n : ℝ) * pseudo ≤ M := by rw [hM]; linarith
    have h3 : u * ((n : ℝ) * pseudo) ≤ u * M := mul_le_mul_of_nonneg_left hle hu
    have h4 : (y.vals.length : ℝ) + a ≤ M + u * M := by rw [hM] at h3 ⊢; linarith
    have h5 : u * ((y.vals.length : ℝ) + a) ≤ u * (M + u * M) := mul_le_mul_of_nonneg_left h4 hu
    have h6 : u * (u * M) ≤ u * (1 / 200 * M) := mul_le_mul_of_nonneg_left (mul_le_mul_of_nonneg_right hu1 hMp.le) hu
    have h7 : 0 ≤ u * M := mul_nonneg hu hMp.le
    rw [abs_le]
    constructor <;> rw [hM] at * <;> linarith
  refine ⟨_, by unfold justNoiseFitR; rw [oneHot_eq h, ok_bind, pure_eq_ok], by simp, fun k hk => ?_⟩
  intro f
  set cnt : ℝ := (y.vals.count (k : Int) : ℝ) with hcnt
  have hcnt0 : 0 ≤ cnt := by positivity
  have hget : (List.map (fun c => flogR L (rF L.rnd ((Flt.fin c).div (.fin N)))) ((List.range n).map fun k =>
      L.rnd (pseudo + (((y.vals.map fun v => (List.range (n : Int).toNat).map fun (j : Nat) => decide ((j : Int) = v)).countP
        fun row => row.getD k false : Nat) : ℝ))))[k]? =
      some (flogR L (.fin (L.rnd (L.rnd (pseudo + cnt) / N)))) := by
    rw [List.map_map, List.getElem?_map, List.getElem?_range hk, Option.map_some]
    simp only [Function.comp]
    rw [Int.toNat_natCast, countP_oneHot _ hk, Flt.div_fin hNp.ne']
    rfl
  have hfd : f = (cnt + pseudo) / M := rfl
  constructor
  · intro h0
    have hz : cnt + pseudo = 0 := by
      rw [hfd, div_eq_zero_iff] at h0
      rcases h0 with h0 | h0
      · exact h0
      · exact absurd h0 hMp.ne'
    refine Eq.trans hget ?_
    rw [show pseudo + cnt = 0 by linarith, hr.zero, zero_div, hr.zero]
    simp [flogR]
  · intro h0
    have hpos : 0 < pseudo + cnt := by
      rcases lt_or_eq_of_le (by positivity : 0 ≤ pseudo + cnt) with h1 | h1
      · exact h1
      · exfalso; apply h0; rw [hfd, show cnt + pseudo = 0 by linarith, zero_div]
    have hfp : 0 < f := by rw [hfd]; exact div_pos (by linarith) hMp
    set F := L.rnd (L.rnd (pseudo + cnt) / N) with hF
    have hFp : 0 < F := hr.pos _ (div_pos (hr.pos _ hpos) hNp)
    refine ⟨L.log F, ?_, ?_⟩
    · refine Eq.trans hget ?_
      simp only [flogR, if_pos hFp]
    · obtain ⟨d1, hd1, e1⟩ := relError_factor hA.rnd (pseudo + cnt)
      obtain ⟨d2, hd2, e2⟩ := relError_factor hA.rnd (L.rnd (pseudo + cnt) / N)
      have hFf : |F - f| ≤ 6 * u * f := by
        have eN : N = M * (1 + (N - M) / M) := by field_simp; ring
        set t := (N - M) / M with htd
        have ht : |t| ≤ 201 / 100 * u := by
          rw [htd, abs_div, abs_of_pos hMp, div_le_iff₀ hMp]; exact hNM
        have ht' := abs_le.1 ht
        have ht1 : 0 < 1 + t := by linarith
        rw [hF, e2, e1, eN]
        have e3 : (pseudo + cnt) * (1 + d1) / (M * (1 + t)) * (1 + d2) - f =
            f * ((1 + d1) * (1 + d2) / (1 + t) - 1) := by
          rw [hfd]; field_simp; ring
        rw [e3, abs_mul, abs_of_pos hfp, mul_comm (6 * u)]
        refine mul_le_mul_of_nonneg_left ?_ hfp.le
        have e4 : (1 + d1) * (1 + d2) / (1 + t) - 1 = (d1 + d2 + d1 * d2 - t) / (1 + t) := by field_simp; ring
        rw [e4, abs_div, abs_of_pos ht1, div_le_iff₀ ht1]
        have a1 : |d1 + d2 + d1 * d2 - t| ≤ 402 / 100 * u := by
          have b1 := abs_sub (d1 + d2 + d1 * d2) t
          have b2 := abs_add_le (d1 + d2) (d1 * d2)
          have b3 := abs_add_le d1 d2
          have b4 : |d1 * d2| ≤ u * (1 / 200) := by
            rw [abs_mul]
            exact mul_le_mul hd1 (le_trans hd2 hu1) (abs_nonneg _) hu
          linarith
        have a2 : 6 * u * (9 / 10) ≤ 6 * u * (1 + t) := mul_le_mul_of_nonneg_left (by linarith [ht'.1]) (by linarith)
        linarith
      obtain ⟨-, hlog⟩ := log_rel_error hfp (by linarith) hFf
      have h1 := hA.log F hFp
      have h2 : |Real.log F| ≤ |Real.log f| + 20 / 19 * (6 * u) := by
        have := abs_sub_abs_le_abs_sub (Real.log F) (Real.log f)
        linarith
      have h3 := mul_le_mul_of_nonneg_left h2 hu
      have h4 := abs_sub_le (L.log F) (Real.log F) (Real.log f)
      have h5 : u * u ≤ u * (1 / 200) := mul_le_mul_of_nonneg_left hu1 hu
      have h6 : 0 ≤ u * |Real.log f| := mul_nonneg hu (abs_nonneg _)
      nlinarith

end Mlp.Props
