import Verif.Props.LossAccuracyDouble
import Verif.Props.BenchRound

/-! # Property C126: accuracy of the estimates of a classification benchmark in floating point

Predictions are normalised (once or twice), the losses are computed and averaged.  The exact losses are those of the *shares* of the labels in the
total probability a row stands for. -/

namespace Mlp.Props
open Mlp.Util Mlp.Frame Mlp.PerfR Mlp.PaperR Mlp.CurveR Mlp.LossR Mlp.Spec Mlp.Lemmas Mlp.Round Mlp.Classif Mlp.Paper

variable {L : Lib ℝ} {u : ℝ} {dotR : List ℝ → List ℝ → ℝ}

/-- The exact normalised probabilities of a row of log-probabilities. -/
noncomputable def shares (r : List (Flt ℝ)) : List ℝ := (probs r).map fun x => x / (probs r).sum

/-- The row `r'` is the row `r` normalised, with an error of at most `T` in each entry; `-inf` is kept. -/
def CloseRow (T : ℝ) (r r' : List (Flt ℝ)) : Prop :=
  List.Forall₂ (fun v w => (v = .ninf ∧ w = .ninf) ∨ ∃ x y : ℝ, v = .fin x ∧ w = .fin y ∧ |y - (x - logTotal r)| ≤ T) r r'

/-- All finite entries of a row are at most `B` in absolute value. -/
def BoundedRow (B : ℝ) (r : List (Flt ℝ)) : Prop := ∀ x : ℝ, .fin x ∈ r → |x| ≤ B

/-! ## Shares -/

theorem probs_sum_pos {r : List (Flt ℝ)} (h : Proper r) : 0 < (probs r).sum := by
  obtain ⟨x, hx⟩ := h.2
  exact lt_of_lt_of_le (Real.exp_pos x) (List.single_le_sum (probs_nonneg r) _ (List.mem_map.2 ⟨_, hx, rfl⟩))

theorem shares_length (r : List (Flt ℝ)) : (shares r).length = r.length := by simp [shares, probs]

theorem pr_shares (r : List (Flt ℝ)) (k : Nat) : pr (shares r) k = pr (probs r) k / (probs r).sum := by
  unfold shares pr
  rw [List.getD_eq_getElem?_getD, List.getElem?_map, List.getD_eq_getElem?_getD]
  cases (probs r)[k]? <;> simp

theorem shares_nonneg {r : List (Flt ℝ)} (h : Proper r) : ∀ v ∈ shares r, 0 ≤ v := by
  intro v hv
  obtain ⟨w, hw, rfl⟩ := List.mem_map.1 hv
  exact div_nonneg (probs_nonneg r w hw) (probs_sum_pos h).le

theorem shares_probVec {r : List (Flt ℝ)} (h : Proper r) : IsProbVec (shares r) := by
  refine ⟨shares_nonneg h, ?_⟩
  unfold shares
  have : ∀ (l : List ℝ) (c : ℝ), (l.map fun x => x / c).sum = l.sum / c := by
    intro l c
    induction l with
    | nil => simp
    | cons a l ih => rw [List.map_cons, List.sum_cons, ih, List.sum_cons, add_div]
  rw [this, div_self (probs_sum_pos h).ne']

/-- A finite entry is the logarithm of its share. -/
theorem share_fin {r : List (Flt ℝ)} (h : Proper r) {k : Nat} {x : ℝ} (hx : r[k]? = some (.fin x)) :
    pr (shares r) k = Real.exp (x - logTotal r) := by
  rw [pr_shares, pr_probs, List.getD_eq_getElem?_getD, hx, Real.exp_sub, logTotal, Real.exp_log (probs_sum_pos h)]
  rfl

theorem share_ninf {r : List (Flt ℝ)} {k : Nat} (hx : r[k]? = some .ninf) : pr (shares r) k = 0 := by
  rw [pr_shares, pr_probs, List.getD_eq_getElem?_getD, hx]
  simp [prob]

theorem CloseRow.get {T : ℝ} {r r' : List (Flt ℝ)} (h : CloseRow T r r') {k : Nat} (hk : k < r.length) :
    (r[k]? = some .ninf ∧ r'[k]? = some .ninf) ∨ ∃ x y : ℝ, r[k]? = some (.fin x) ∧ r'[k]? = some (.fin y) ∧ |y - (x - logTotal r)| ≤ T := by
  have hk' : k < r'.length := by rw [← h.length_eq]; exact hk
  have := (List.forall₂_iff_get.1 h).2 k hk hk'
  simp only [List.get_eq_getElem] at this
  rw [List.getElem?_eq_getElem hk, List.getElem?_eq_getElem hk']
  rcases this with ⟨a, b⟩ | ⟨x, y, a, b, c⟩
  · exact .inl ⟨by rw [a], by rw [b]⟩
  · exact .inr ⟨x, y, by rw [a], by rw [b], c⟩

/-- The probabilities of a computed row are close to the exact shares, relatively. -/
theorem CloseRow.prob {T : ℝ} {r r' : List (Flt ℝ)} (hr : Proper r) (h : CloseRow T r r') (hT : T ≤ 1 / 50) (k : Nat) :
    |pr (probs r') k - pr (shares r) k| ≤ 11 / 10 * T * pr (shares r) k := by
  by_cases hk : k < r.length
  · rcases h.get hk with ⟨a, b⟩ | ⟨x, y, a, b, c⟩
    · rw [share_ninf a, pr_probs, List.getD_eq_getElem?_getD, b]
      simp [Spec.prob]
    · have hT0 : 0 ≤ T := (abs_nonneg _).trans c
      rw [share_fin hr a, pr_probs, List.getD_eq_getElem?_getD, b]
      simp only [Option.getD_some, Spec.prob]
      have := exp_add_error (d := x - logTotal r) (t := y - (x - logTotal r)) c
      rw [show x - logTotal r + (y - (x - logTotal r)) = y by ring] at this
      refine this.trans ?_
      have hE : Real.exp T ≤ 11 / 10 := by
        have h1 : Real.exp T * Real.exp (-T) = 1 := by rw [← Real.exp_add]; simp
        have h2 := Real.add_one_le_exp (-T)
        nlinarith [Real.exp_pos T]
      have hp := Real.exp_pos (x - logTotal r)
      rw [mul_comm (11 / 10) T, mul_assoc T]
      exact mul_le_mul_of_nonneg_left (mul_le_mul_of_nonneg_right hE hp.le) hT0
  · have h1 : pr (probs r') k = 0 := by
      have : (probs r').length ≤ k := by rw [probs_length, ← h.length_eq]; omega
      simp [pr, this]
    have h2 : pr (shares r) k = 0 := by
      have : (shares r).length ≤ k := by rw [shares_length]; omega
      simp [pr, this]
    rw [h1, h2]; simp

/-! ## How the exact losses depend on the probabilities -/

theorem brierAt_close {q q' : List ℝ} (hq : IsProbVec q) (hl : q'.length = q.length) {e : ℝ} (he : e ≤ 1 / 10)
    (h : ∀ k, |pr q' k - pr q k| ≤ e * pr q k) (k : Nat) : |brierAt q' k - brierAt q k| ≤ 21 / 10 * e := by
  unfold brierAt
  rw [hl, ← Finset.sum_sub_distrib]
  refine (Finset.abs_sum_le_sum_abs _ _).trans ?_
  have h1 : ∀ j ∈ Finset.range q.length, |(pr q' j - if j = k then 1 else 0) ^ 2 - (pr q j - if j = k then 1 else 0) ^ 2| ≤
      21 / 10 * e * pr q j := by
    intro j _
    set b : ℝ := if j = k then 1 else 0 with hb
    have hb' : 0 ≤ b ∧ b ≤ 1 := by rw [hb]; split <;> norm_num
    have hq0 := pr_nonneg hq.1 j
    have hq1 := pr_le_one hq j
    have hx := abs_le.1 (h j)
    have he0 : e * pr q j ≤ 1 / 10 := by
      rcases le_or_gt 0 e with h0 | h0
      · nlinarith
      · nlinarith
    rw [show (pr q' j - b) ^ 2 - (pr q j - b) ^ 2 = (pr q' j - pr q j) * (pr q' j + pr q j - 2 * b) by ring, abs_mul]
    have h2 : |pr q' j + pr q j - 2 * b| ≤ 21 / 10 := by
      rw [abs_le]; constructor <;> nlinarith
    have h3 := mul_le_mul (h j) h2 (abs_nonneg _) ((abs_nonneg _).trans (h j))
    linarith
  refine (Finset.sum_le_sum h1).trans (le_of_eq ?_)
  rw [← Finset.mul_sum, ← sum_range, hq.2, mul_one]

theorem sumSq_scale {q q' : List ℝ} (hq : ∀ v ∈ q, 0 ≤ v) (hl : q'.length = q.length) {e : ℝ} (he0 : 0 ≤ e) (he : e ≤ 1)
    (h : ∀ k, |pr q' k - pr q k| ≤ e * pr q k) :
    (1 - e) * norm2 q ≤ norm2 q' ∧ norm2 q' ≤ (1 + e) * norm2 q := by
  have hS : 0 ≤ sumSq q := Finset.sum_nonneg fun k _ => sq_nonneg _
  have hn : norm2 q ^ 2 = sumSq q := Real.sq_sqrt hS
  have hn0 : 0 ≤ norm2 q := Real.sqrt_nonneg _
  constructor
  · refine Real.le_sqrt_of_sq_le ?_
    rw [mul_pow, hn]
    unfold sumSq
    rw [Finset.mul_sum, hl]
    refine Finset.sum_le_sum fun k _ => ?_
    have h0 := pr_nonneg hq k
    have hx := abs_le.1 (h k)
    rw [← mul_pow]
    exact pow_le_pow_left₀ (mul_nonneg (by linarith) h0) (by linarith) 2
  · refine Real.sqrt_le_iff.2 ⟨mul_nonneg (by linarith) hn0, ?_⟩
    rw [mul_pow, hn]
    unfold sumSq
    rw [Finset.mul_sum, hl]
    refine Finset.sum_le_sum fun k _ => ?_
    have h0 := pr_nonneg hq k
    have hx := abs_le.1 (h k)
    rw [← mul_pow]
    refine pow_le_pow_left₀ ?_ (by linarith) 2
    nlinarith

theorem ratio_close {q q' : List ℝ} (hq : ∀ v ∈ q, 0 ≤ v) (hp : 0 < norm2 q) (hl : q'.length = q.length) {e : ℝ} (he0 : 0 ≤ e) (he : e ≤ 1 / 10)
    (h : ∀ k, |pr q' k - pr q k| ≤ e * pr q k) {k : Nat} (h1 : pr q k / norm2 q ≤ 1) :
    |pr q' k / norm2 q' - pr q k / norm2 q| ≤ 23 / 10 * e := by
  obtain ⟨a, b⟩ := sumSq_scale hq hl he0 (by linarith) h
  have hp' : 0 < norm2 q' := lt_of_lt_of_le (mul_pos (by linarith) hp) a
  have hx := abs_le.1 (h k)
  have h0 := pr_nonneg hq k
  have e1 : pr q' k / norm2 q' - pr q k / norm2 q =
      ((pr q' k - pr q k) + pr q k / norm2 q * (norm2 q - norm2 q')) / norm2 q' := by
    field_simp; ring
  rw [e1, abs_div, abs_of_pos hp', div_le_iff₀ hp']
  have h2 : |norm2 q - norm2 q'| ≤ e * norm2 q := by rw [abs_le]; constructor <;> linarith
  have h3 : 0 ≤ pr q k / norm2 q := div_nonneg h0 hp.le
  have h4 : |pr q k / norm2 q * (norm2 q - norm2 q')| ≤ e * norm2 q := by
    rw [abs_mul, abs_of_nonneg h3]
    calc pr q k / norm2 q * |norm2 q - norm2 q'| ≤ 1 * (e * norm2 q) := mul_le_mul h1 h2 (abs_nonneg _) (by norm_num)
      _ = e * norm2 q := one_mul _
  have h5 : pr q k ≤ norm2 q := (div_le_one hp).1 h1
  have h6 : e * pr q k ≤ e * norm2 q := mul_le_mul_of_nonneg_left h5 he0
  have h7 := abs_add_le (pr q' k - pr q k) (pr q k / norm2 q * (norm2 q - norm2 q'))
  have h8 := h k
  have h9 : 23 / 10 * e * ((1 - e) * norm2 q) ≤ 23 / 10 * e * norm2 q' := mul_le_mul_of_nonneg_left a (by linarith)
  have h10 : 0 ≤ e * norm2 q := mul_nonneg he0 hp.le
  have h11 : e * (e * norm2 q) ≤ 1 / 10 * (e * norm2 q) := mul_le_mul_of_nonneg_right he h10
  nlinarith

theorem norm2_shares_pos {r : List (Flt ℝ)} (h : Proper r) : 0 < norm2 (shares r) := by
  have e : norm2 (shares r) = norm2 (probs r) * (1 / (probs r).sum) := by
    rw [← norm2_map_mul _ (one_div_nonneg.2 (probs_sum_pos h).le)]
    simp [shares, div_eq_mul_inv]
  rw [e]
  exact mul_pos (norm2_pos h) (one_div_pos.2 (probs_sum_pos h))

theorem ratio_shares {r : List (Flt ℝ)} (h : Proper r) (k : Nat) :
    pr (shares r) k / norm2 (shares r) = pr (probs r) k / norm2 (probs r) := by
  have e : norm2 (shares r) = norm2 (probs r) * (1 / (probs r).sum) := by
    rw [← norm2_map_mul _ (one_div_nonneg.2 (probs_sum_pos h).le)]
    simp [shares, div_eq_mul_inv]
  have h1 := probs_sum_pos h
  have h2 := norm2_pos h
  rw [e, pr_shares]
  field_simp

/-- The norm of the probabilities of a computed row. -/
theorem CloseRow.log_norm {T : ℝ} {r r' : List (Flt ℝ)} (hr : Proper r) (h : CloseRow T r r') (hT0 : 0 ≤ T) (hT : T ≤ 1 / 50) :
    |Real.log (norm2 (probs r'))| ≤ r.length ∧ sumSq (probs r') ≤ 11 / 10 := by
  have hl : (probs r').length = (shares r).length := by rw [probs_length, shares_length, h.length_eq]
  have hq := shares_probVec hr
  obtain ⟨a, b⟩ := sumSq_scale hq.1 hl (e := 11 / 10 * T) (by linarith) (by linarith) (h.prob hr hT)
  have hne : 1 ≤ r.length := by
    obtain ⟨x, hx⟩ := hr.2
    exact List.length_pos_of_mem hx
  have hn : (1 : ℝ) ≤ r.length := by exact_mod_cast hne
  have h1 : norm2 (shares r) ≤ 1 := by
    refine Real.sqrt_le_iff.2 ⟨by norm_num, ?_⟩
    have := sumSq_le_sum hq.1
    rwa [hq.2] at this
  have h2 : 1 ≤ r.length * norm2 (shares r) ^ 2 := by
    have := sum_le_sumSq (shares r)
    rw [hq.2, shares_length] at this
    unfold norm2
    have h0 : 0 ≤ sumSq (shares r) := Finset.sum_nonneg fun k _ => sq_nonneg _
    rw [Real.sq_sqrt h0]
    linarith
  have hp0 := norm2_shares_pos hr
  set N := norm2 (probs r') with hN
  set M := norm2 (shares r) with hM
  have hNp : 0 < N := lt_of_lt_of_le (mul_pos (by linarith) hp0) a
  have hN2 : N ≤ 103 / 100 := by nlinarith
  have hS : sumSq (probs r') = N ^ 2 := (Real.sq_sqrt (Finset.sum_nonneg fun k _ => sq_nonneg _)).symm
  refine ⟨?_, by rw [hS]; nlinarith⟩
  rw [abs_le]
  constructor
  · have h5 := Real.add_one_le_exp (-(Real.log (N ^ 2)))
    have hN2p : 0 < N ^ 2 := by positivity
    rw [Real.exp_neg, Real.exp_log hN2p] at h5
    have h6 : (97 / 100 * M) ^ 2 ≤ N ^ 2 := by
      refine pow_le_pow_left₀ (by positivity) ?_ 2
      nlinarith
    have h7 : (N ^ 2)⁻¹ ≤ 11 / 10 * r.length := by
      rw [inv_le_iff_one_le_mul₀ hN2p]
      nlinarith
    rw [Real.log_pow] at h5
    push_cast at h5
    linarith
  · have := Real.log_le_sub_one_of_pos hNp
    linarith

/-! ## The losses of one sample -/

/-- **C126, losses.**  Let the rows of `q` be floats and the normalised rows of `p` up to an error of `T` in each entry.  Then the computed losses of `q`
are the exact losses of the shares of `p`: the log loss up to `T`, the Brier loss up to `(18 n u + 3 T)` times its scale, the spherical loss up to `(31 n u + 3 T)` over its
scale. -/
theorem C126_losses (hL : GoodLib L) (hE : GoodExpLog L) (hA : AccurateLib u L) {y : LabelVec} {p q : Mat ℝ} (h : ClassInput y q)
    (hp : ∀ r ∈ p.rows, Proper r) (hq : ∀ r ∈ q.rows, Proper r ∧ FloatRow L.rnd r ∧ AtMostZero r) {T : ℝ} (hT0 : 0 ≤ T) (hT : T ≤ 1 / 50)
    (hc : List.Forall₂ (CloseRow T) p.rows q.rows) (hn : q.ncols * u ≤ 1 / 100) (rescale : Bool) :
    (∃ l, logLoss y q = .ok l ∧ PerSample (fun r k v => (pr (shares r) k = 0 → v = .pinf) ∧
      (pr (shares r) k ≠ 0 → ∃ x : ℝ, v = .fin x ∧ |x - -Real.log (pr (shares r) k)| ≤ T)) y p l) ∧
    (∃ l, brierLossR L rescale y q = .ok l ∧ PerSample (fun r k v => ∃ x : ℝ, v = .fin x ∧
      |x - brierScale rescale q.ncols * brierAt (shares r) k| ≤ brierScale rescale q.ncols * (18 * q.ncols * u + 3 * T)) y p l) ∧
    (∃ l, sphericalLossR L rescale y q = .ok l ∧ PerSample (fun r k v => ∃ x : ℝ, v = .fin x ∧
      |x - sphereAt rescale q.ncols (shares r) k| ≤ (31 * q.ncols * u + 3 * T) / sphereScale q.ncols) y p l) := by
  have hu := hA.nonneg
  have hnn : (0 : ℝ) ≤ q.ncols := by positivity
  have hnu : 0 ≤ (q.ncols : ℝ) * u := mul_nonneg hnn hu
  -- the row of `q` belonging to a row of `p`
  have key : ∀ {l : List (Flt ℝ)} {R R' : List (Flt ℝ) → Nat → Flt ℝ → Prop}, PerSample R y q l →
      (∀ r r' k v, r ∈ p.rows → r' ∈ q.rows → CloseRow T r r' → k < r.length → R r' k v → R' r k v) → PerSample R' y p l := by
    intro l R R' hs himp
    refine ⟨hs.1.trans hc.length_eq.symm, fun i k r hr hk => ?_⟩
    obtain ⟨hi, e⟩ := List.getElem?_eq_some_iff.1 hr
    have hi' : i < q.rows.length := by rw [← hc.length_eq]; exact hi
    obtain ⟨v, hv, hR⟩ := hs.2 i k _ (List.getElem?_eq_getElem hi') hk
    have hcr : CloseRow T r q.rows[i] := by
      have := (List.forall₂_iff_get.1 hc).2 i hi hi'
      simp only [List.get_eq_getElem] at this
      rwa [e] at this
    have hkn : k < r.length := by
      rw [hcr.length_eq, h.rows _ (List.getElem_mem hi')]
      exact_mod_cast (h.range _ (List.mem_of_getElem? hk)).2
    exact ⟨v, hv, himp r _ k v (List.mem_of_getElem? hr) (List.getElem_mem hi') hcr hkn hR⟩
  have hz : ∀ r ∈ q.rows, AtMostZero r := fun r hr => (hq r hr).2.2
  have hlen : ∀ {r r' : List (Flt ℝ)}, CloseRow T r r' → r' ∈ q.rows → r.length = q.ncols := fun hcr hr' => by
    rw [hcr.length_eq, h.rows _ hr']
  refine ⟨?_, ?_, ?_⟩
  · obtain ⟨l, hl, hs⟩ := C120_log h hz
    refine ⟨l, hl, key hs ?_⟩
    rintro r r' k v hr hr' hcr hk hv
    rcases hcr.get hk with ⟨a, b⟩ | ⟨x, y', a, b, c⟩
    · refine ⟨fun _ => ?_, fun h0 => absurd (share_ninf a) h0⟩
      rcases hv with ⟨-, e⟩ | ⟨x, e, -⟩
      · exact e
      · rw [b] at e; cases e
    · have e1 := share_fin (hp r hr) a
      refine ⟨fun h0 => absurd h0 (by rw [e1]; exact (Real.exp_pos _).ne'), fun _ => ?_⟩
      rcases hv with ⟨e, -⟩ | ⟨x', e, e', -⟩
      · rw [b] at e; cases e
      · rw [b] at e
        cases e
        refine ⟨_, e', ?_⟩
        rw [e1, Real.log_exp, show -y' - -(x - logTotal r) = -(y' - (x - logTotal r)) by ring, abs_neg]
        exact c
  · obtain ⟨l, hl, hs⟩ := C125_brier hL hE hA h hz hn rescale
    refine ⟨l, hl, key hs ?_⟩
    rintro r r' k v hr hr' hcr hk ⟨x, hv, hx⟩
    refine ⟨x, hv, ?_⟩
    have hsp := brierScale_pos rescale q.ncols
    have hq' := shares_probVec (hp r hr)
    have hl' : (probs r').length = (shares r).length := by rw [probs_length, shares_length, hcr.length_eq]
    have h1 := brierAt_close hq' hl' (e := 11 / 10 * T) (by linarith) (hcr.prob (hp r hr) hT) k
    have h2 := brierAt_le (probs_nonneg r') k
    have h3 := (hcr.log_norm (hp r hr) hT0 hT).2
    have h4 : (q.ncols : ℝ) * u * (7 + 4 * brierAt (probs r') k) ≤ q.ncols * u * 18 := mul_le_mul_of_nonneg_left (by linarith) hnu
    have h5 := abs_sub_le x (brierScale rescale q.ncols * brierAt (probs r') k) (brierScale rescale q.ncols * brierAt (shares r) k)
    rw [← mul_sub, abs_mul, abs_of_pos hsp] at h5
    have h6 := mul_le_mul_of_nonneg_left h4 hsp.le
    have h7 := mul_le_mul_of_nonneg_left h1 hsp.le
    have h8 : brierScale rescale q.ncols * (21 / 10 * (11 / 10 * T)) ≤ brierScale rescale q.ncols * (3 * T) :=
      mul_le_mul_of_nonneg_left (by linarith) hsp.le
    calc _ ≤ _ := h5
      _ ≤ brierScale rescale q.ncols * (q.ncols * u * 18) + brierScale rescale q.ncols * (3 * T) := by linarith
      _ = _ := by ring
  · have hlog : ∀ r ∈ q.rows, |Real.log (norm2 (probs r))| ≤ q.ncols := by
      intro r' hr'
      obtain ⟨i, hi, rfl⟩ := List.mem_iff_getElem.1 hr'
      have hi' : i < p.rows.length := by rw [hc.length_eq]; exact hi
      have hcr := (List.forall₂_iff_get.1 hc).2 i hi' hi
      simp only [List.get_eq_getElem] at hcr
      have := (hcr.log_norm (hp _ (List.getElem_mem hi')) hT0 hT).1
      rwa [hlen hcr hr'] at this
    obtain ⟨hs1, hs2⟩ := C125_sphere hL hE hA h (fun r hr => (hq r hr).1) (fun r hr => (hq r hr).2.1) hn (by
      intro r hr
      have := mul_le_mul_of_nonneg_left (hlog r hr) hu
      linarith)
    have hsp := sphereScale_pos q.ncols
    have hsp1 : sphereScale q.ncols ≤ 1 := by
      unfold sphereScale
      split
      · have : (0 : ℝ) ≤ 1 / Real.sqrt q.ncols := by positivity
        linarith
      · exact le_rfl
    have hclose : ∀ {r r' : List (Flt ℝ)} {k : Nat}, r ∈ p.rows → CloseRow T r r' → k < r.length →
        |pr (probs r') k / norm2 (probs r') - pr (shares r) k / norm2 (shares r)| ≤ 3 * T := by
      intro r r' k hr hcr hk
      have hq' := shares_probVec (hp r hr)
      have hl' : (probs r').length = (shares r).length := by rw [probs_length, shares_length, hcr.length_eq]
      have := ratio_close hq'.1 (norm2_shares_pos (hp r hr)) hl' (e := 11 / 10 * T) (by linarith) (by linarith) (hcr.prob (hp r hr) hT) (k := k)
        (by rw [ratio_shares (hp r hr)]; exact (ratio_bounds (hp r hr) hk).2)
      linarith
    cases rescale with
    | false =>
      obtain ⟨l, hl, hs⟩ := hs1
      refine ⟨l, hl, key hs ?_⟩
      rintro r r' k v hr hr' hcr hk ⟨x, hv, hx⟩
      refine ⟨x, hv, ?_⟩
      simp only [sphereAt, Bool.false_eq_true, if_false]
      have h1 := hclose hr hcr hk
      have h2 := hlog r' hr'
      have h3 := mul_le_mul_of_nonneg_left h2 hu
      have h4 := abs_sub_le x (-(pr (probs r') k / norm2 (probs r'))) (-(pr (shares r) k / norm2 (shares r)))
      rw [neg_sub_neg, abs_sub_comm (pr (shares r) k / _)] at h4
      have h5 : 31 * q.ncols * u + 3 * T ≤ (31 * q.ncols * u + 3 * T) / sphereScale q.ncols := by
        rw [le_div_iff₀ hsp]
        have : 0 ≤ 31 * (q.ncols : ℝ) * u + 3 * T := by linarith
        nlinarith
      refine le_trans ?_ h5
      nlinarith
    | true =>
      obtain ⟨l, hl, hs⟩ := hs2
      refine ⟨l, hl, key hs ?_⟩
      rintro r r' k v hr hr' hcr hk ⟨x, hv, hx⟩
      refine ⟨x, hv, ?_⟩
      simp only [sphereAt, if_true]
      have h1 := hclose hr hcr hk
      have h2 := hlog r' hr'
      have h3 := mul_le_mul_of_nonneg_left h2 hu
      have h4 := abs_sub_le x ((1 - pr (probs r') k / norm2 (probs r')) / sphereScale q.ncols)
        ((1 - pr (shares r) k / norm2 (shares r)) / sphereScale q.ncols)
      rw [← sub_div (1 - _) (1 - _), abs_div _ (sphereScale q.ncols), abs_of_pos hsp, sub_sub_sub_cancel_left, abs_sub_comm (pr (shares r) k / _)] at h4
      refine h4.trans ((add_le_add hx (div_le_div_of_nonneg_right h1 hsp.le)).trans ?_)
      rw [← add_div]
      refine div_le_div_of_nonneg_right ?_ hsp.le
      nlinarith

end Mlp.Props
