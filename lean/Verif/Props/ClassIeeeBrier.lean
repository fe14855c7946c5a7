import Verif.Props.ClassIeee
import Verif.Props.TableIeee

/-! # Property C150, the Brier loss, and a library that meets the hypotheses -/

namespace Mlp.Props
open Mlp.Util Mlp.Frame Mlp.PerfR Mlp.PaperR Mlp.CurveR Mlp.LossR Mlp.Spec Mlp.Lemmas Mlp.Round Mlp.RegrI Mlp.ClassI

variable {L : Lib ℝ}

theorem small_of_le {x : ℝ} {n : Nat} (hn : n ≤ 1023) (h : |x| ≤ 2 ^ n) : |x| ≤ 2 ^ 1023 :=
  h.trans (pow_le_pow_right₀ (by norm_num) hn)

theorem probR_rangeI (hL : IeeeExpLog L) {r : List (Flt ℝ)} (h : AtMostZero r) {v : Flt ℝ} (hv : v ∈ r) :
    0 ≤ probR L v ∧ probR L v ≤ 1 := by
  rcases h v hv with rfl | ⟨x, hx, rfl⟩
  · simp [probR]
  · exact ⟨hL.exp_nonneg x, hL.exp_le_one x hx⟩

theorem round_unit {d : ℝ} (h : |d| ≤ 1) : |ieeeRound d| ≤ 1 := by
  obtain ⟨h0, h1⟩ := abs_le.1 h
  have hr := ieeeRound_monoRounding (K := ℝ)
  have a := hr.mono h0
  have b := hr.mono h1
  rw [hr.neg, hr.one] at a
  rw [hr.one] at b
  exact abs_le.2 ⟨a, b⟩

theorem brierTermI_eq (hL : IeeeExpLog L) {r : List (Flt ℝ)} (h : AtMostZero r) {v : Flt ℝ} (hv : v ∈ r) (b : Bool) :
    brierTermI L v b = brierTermR L v b := by
  obtain ⟨h0, h1⟩ := probR_rangeI hL h hv
  have hd : |probR L v - if b then 1 else 0| ≤ 1 := by
    rw [abs_le]; cases b <;> constructor <;> simp <;> linarith
  have hq := round_unit hd
  rw [brierTermR_fin (atMostZero_logProbs h v hv)]
  unfold brierTermI
  rw [fexpR_prob (atMostZero_logProbs h v hv), hL.rnd]
  have e : (Flt.fin (probR L v)).sub (Classif.boolFlt b) = .fin (probR L v - if b then 1 else 0) := by
    cases b <;> simp [Classif.boolFlt]
  simp only []
  rw [e, iF_small (small_of_le (n := 0) (by norm_num) (by simpa using hd)), Flt.mul_fin, iF_small]
  refine small_of_le (n := 0) (by norm_num) ?_
  rw [abs_mul, pow_zero]
  exact mul_le_one₀ hq (abs_nonneg _) hq

theorem brierTerms_rangeI (hL : IeeeExpLog L) {r : List (Flt ℝ)} (h : AtMostZero r) (k : Nat) :
    ∀ t ∈ brierTerms L r k, 0 ≤ t ∧ t ≤ 1 := by
  intro t ht
  obtain ⟨j, hj, rfl⟩ := List.mem_map.1 ht
  have hm := getD_mem (r := r) (List.mem_range.1 hj)
  obtain ⟨h0, h1⟩ := probR_rangeI hL h hm
  have hd : |probR L (r.getD j .nan) - if j = k then 1 else 0| ≤ 1 := by
    rw [abs_le]; split_ifs <;> constructor <;> linarith
  have hq := round_unit hd
  have hr := ieeeRound_monoRounding (K := ℝ)
  rw [hL.rnd]
  refine ⟨hr.nonneg (mul_self_nonneg _), ?_⟩
  refine (le_abs_self _).trans (round_unit ?_)
  rw [abs_mul]
  exact mul_le_one₀ hq (abs_nonneg _) hq

theorem brierSum_range (hL : IeeeExpLog L) {r : List (Flt ℝ)} (h : AtMostZero r) (hn : r.length ≤ 2 ^ 53) (k : Nat) :
    0 ≤ L.sum (brierTerms L r k) ∧ L.sum (brierTerms L r k) ≤ r.length := by
  have hr : MonoRounding L.rnd := by rw [hL.rnd]; exact ieeeRound_monoRounding
  have ht := brierTerms_rangeI hL h k
  have hlen : (brierTerms L r k).length = r.length := by simp [brierTerms]
  refine ⟨sum_nonneg_of_trees hr hL.sum fun t h => (ht t h).1, ?_⟩
  have := sum_le_length hr hL.sum (fun t h => (ht t h).2) (by
    intro j hj
    rw [hL.rnd]
    exact ieeeRound_nat (hj.trans (hlen ▸ hn)))
  rwa [hlen] at this

theorem zipWith_termI (hL : IeeeExpLog L) {r : List (Flt ℝ)} (h : AtMostZero r) (b : List Bool) :
    List.zipWith (brierTermI L) r b = List.zipWith (brierTermR L) r b := by
  apply List.ext_getElem?
  intro i
  rw [List.getElem?_zipWith, List.getElem?_zipWith]
  cases e : r[i]? with
  | none => rfl
  | some v =>
    cases b[i]? with
    | none => rfl
    | some c => exact congrArg some (brierTermI_eq hL h (List.mem_of_getElem? e) c)

/-- The factor of `brier_loss` is at most 2. -/
theorem factor_range {n : Nat} (h : 1 < n) : 0 ≤ (n : ℝ) / ((n : ℝ) - 1) ∧ (n : ℝ) / ((n : ℝ) - 1) ≤ 2 := by
  have h2 : (2 : ℝ) ≤ n := by exact_mod_cast h
  refine ⟨div_nonneg (by linarith) (by linarith), ?_⟩
  rw [div_le_iff₀ (by linarith)]
  linarith

theorem round_two_range {x : ℝ} (h0 : 0 ≤ x) (h : x ≤ 2) : 0 ≤ ieeeRound x ∧ ieeeRound x ≤ 2 := by
  have hr := ieeeRound_monoRounding (K := ℝ)
  have h2 := hr.mono h
  have e : ieeeRound (2 : ℝ) = 2 := by simpa using ieeeRound_nat (n := 2) (by norm_num)
  rw [e] at h2
  exact ⟨hr.nonneg h0, h2⟩

/-- **C150, Brier loss without overflow.**  For log-probabilities up to 0 nothing overflows in `brier_loss`: it returns what it would return
if there were no largest exponent. -/
theorem C150_brier_agree (hL : IeeeExpLog L) {y : LabelVec} {p : Mat ℝ} (h : ClassInput y p) (hp : ∀ r ∈ p.rows, AtMostZero r)
    (hn : p.ncols ≤ 2 ^ 53) (rescale : Bool) : brierLossI L rescale y p = brierLossR L rescale y p := by
  obtain ⟨l, hl, hs⟩ := brierR_eq (L := L) h (fun r hr => atMostZero_logProbs (hp r hr)) false
  have hg : GoodLabels (Classif.asInt y) (p.ncols : Int) := ⟨by exact_mod_cast h.labels, rfl, h.range⟩
  have hfin : ∀ v ∈ l, ∃ x : ℝ, v = .fin x ∧ 0 ≤ x ∧ x ≤ 2 ^ 53 := by
    intro v hv
    obtain ⟨i, hi, rfl⟩ := List.mem_iff_getElem.1 hv
    have hi2 : i < p.rows.length := hs.1 ▸ hi
    have hi3 : i < y.vals.length := h.length ▸ hi2
    have hk := (h.range _ (List.getElem_mem hi3)).1
    obtain ⟨v, hv, e⟩ := hs.2 i (y.vals[i]).toNat p.rows[i] (List.getElem?_eq_getElem hi2)
      (by rw [List.getElem?_eq_getElem hi3, Int.toNat_of_nonneg hk])
    rw [List.getElem?_eq_getElem hi, Option.some.injEq] at hv
    have hr := List.getElem_mem hi2
    obtain ⟨h0, h1⟩ := brierSum_range hL (hp _ hr) (by rw [h.rows _ hr]; exact hn) (y.vals[i]).toNat
    refine ⟨_, hv.trans e, ?_⟩
    simp only [scaleBrier, Bool.false_eq_true, false_and, if_false]
    refine ⟨h0, h1.trans ?_⟩
    rw [h.rows _ hr]
    exact_mod_cast hn
  unfold brierLossI
  unfold brierLossR at hl ⊢
  simp only [validate_ok h, ok_bind, oneHot_eq hg] at hl ⊢
  simp only [Bool.false_and, Bool.false_eq_true, if_false] at hl
  have e : ∀ B : List (List Bool), List.zipWith (fun (r : List (Flt ℝ)) (b : List Bool) => sumFR L.sum (List.zipWith (brierTermI L) r b)) p.rows B =
      List.zipWith (fun (r : List (Flt ℝ)) (b : List Bool) => sumFR L.sum (List.zipWith (brierTermR L) r b)) p.rows B := by
    intro B
    apply List.ext_getElem?
    intro i
    rw [List.getElem?_zipWith, List.getElem?_zipWith]
    cases e : p.rows[i]? with
    | none => rfl
    | some r =>
      cases B[i]? with
      | none => rfl
      | some c => exact congrArg some (congrArg (sumFR L.sum) (zipWith_termI hL (hp r (List.mem_of_getElem? e)) c))
  have hl2 := Except.ok.inj hl
  rw [e, hl2]
  split_ifs with hc
  · have hc2 : 1 < p.ncols := by simpa using (Bool.and_eq_true_iff.1 hc).2
    obtain ⟨f0, f1⟩ := factor_range hc2
    obtain ⟨g0, g1⟩ := round_two_range f0 f1
    refine congrArg Except.ok (List.map_congr_left fun v hv => ?_)
    obtain ⟨x, rfl, x0, x1⟩ := hfin v hv
    rw [hL.rnd, iF_small (small_of_le (n := 1) (by norm_num) (by rw [abs_of_nonneg f0]; simpa using f1)), Flt.mul_fin, iF_small]
    · rfl
    · refine small_of_le (n := 54) (by norm_num) ?_
      rw [abs_of_nonneg (mul_nonneg g0 x0), pow_succ']
      exact mul_le_mul g1 x1 x0 (by norm_num)
  · rfl

/-- **C150, Brier loss.**  For log-probabilities up to 0 and at most `2 ^ 53` labels every loss is a number, not negative, and at most the number
of labels, or twice that if rescaled, although probabilities underflow. -/
theorem C150_brier (hL : IeeeExpLog L) {y : LabelVec} {p : Mat ℝ} (h : ClassInput y p) (hp : ∀ r ∈ p.rows, AtMostZero r)
    (hn : p.ncols ≤ 2 ^ 53) (rescale : Bool) :
    ∃ l, brierLossI L rescale y p = .ok l ∧ PerSample (fun _ _ v => ∃ x : ℝ, v = .fin x ∧ 0 ≤ x ∧
      x ≤ if rescale = true ∧ 1 < p.ncols then ieeeRound (2 * (p.ncols : ℝ)) else p.ncols) y p l := by
  rw [C150_brier_agree hL h hp hn rescale]
  obtain ⟨l, hl, hs⟩ := brierR_eq (L := L) h (fun r hr => atMostZero_logProbs (hp r hr)) rescale
  refine ⟨l, hl, perSample_mono hs ?_⟩
  rintro r hr k v rfl
  obtain ⟨h0, h1⟩ := brierSum_range hL (hp r hr) (by rw [h.rows r hr]; exact hn) k
  rw [h.rows r hr] at h1
  refine ⟨_, rfl, ?_⟩
  unfold scaleBrier
  split_ifs with hc
  · obtain ⟨f0, f1⟩ := factor_range hc.2
    obtain ⟨g0, g1⟩ := round_two_range f0 f1
    rw [hL.rnd]
    exact ⟨ieeeRound_monoRounding.nonneg (mul_nonneg g0 h0), ieeeRound_mono (mul_le_mul g1 h1 h0 (by norm_num))⟩
  · exact ⟨h0, h1⟩

/-- **C150, a library.**  The hypotheses hold for correctly rounded functions and sums from left to right. -/
theorem C150_library : IeeeExpLog ieeeLib where
  rnd := rfl
  sum := leftSum_trees _
  exp_zero := by simp [ieeeLib, ieeeRound_monoRounding.one]
  exp_nonneg x := ieeeRound_monoRounding.nonneg (Real.exp_pos x).le
  exp_le_one x hx := by
    have := ieeeRound_mono (Real.exp_le_one_iff.2 hx)
    rwa [ieeeRound_monoRounding.one] at this
  log_range x h0 h1 := by
    refine ⟨ieeeRound_monoRounding.nonneg (Real.log_nonneg h0), ?_⟩
    have h2 : Real.log x ≤ ((2 ^ 10 : Nat) : ℝ) := by
      refine (Real.log_le_log (by linarith) h1).trans ?_
      rw [Real.log_pow]
      have := Real.log_two_lt_d9
      push_cast
      linarith
    have := ieeeRound_mono h2
    rw [ieeeRound_nat (by norm_num)] at this
    exact this.trans (by norm_num)

/-- A row with a possible, an impossible and a second possible label. -/
noncomputable def rowI : List (Flt ℝ) := [.fin 0, .ninf, .fin (-1)]

theorem rowI_proper : Proper rowI := ⟨by simp [rowI], ⟨0, by simp [rowI]⟩⟩

theorem rowI_doubles : DoubleRow rowI := by
  intro x hx
  simp only [rowI, List.mem_cons, Flt.fin.injEq, List.not_mem_nil, or_false, reduceCtorEq, false_or] at hx
  rcases hx with rfl | rfl
  · exact ⟨0, 0, by norm_num, by norm_num, by norm_num, by simp⟩
  · exact ⟨-1, 0, by norm_num, by norm_num, by norm_num, by simp⟩

example : ∃ q, normalizeRowsI ieeeLib ⟨3, [rowI]⟩ = .ok q := by
  obtain ⟨q, h, -⟩ := C150_normalize C150_library (p := ⟨3, [rowI]⟩) (by norm_num) (by simpa using rowI_proper)
    (by simpa using rowI_doubles) (by simp [rowI])
  exact ⟨q, h⟩

theorem rowI_input : ClassInput ⟨'i', [2]⟩ (⟨3, [rowI]⟩ : Mat ℝ) :=
  ⟨Or.inr rfl, by norm_num, by simp, rfl, by simp [rowI], by simp⟩

theorem rowI_atMostZero : ∀ r ∈ (⟨3, [rowI]⟩ : Mat ℝ).rows, AtMostZero r := by
  intro r hr v hv
  simp only [List.mem_singleton] at hr
  subst hr
  simp only [rowI, List.mem_cons, List.not_mem_nil, or_false] at hv
  rcases hv with rfl | rfl | rfl
  · exact .inr ⟨0, le_rfl, rfl⟩
  · exact .inl rfl
  · exact .inr ⟨-1, by norm_num, rfl⟩

example (rescale : Bool) := C150_brier C150_library rowI_input rowI_atMostZero (by norm_num) rescale
example (rescale : Bool) := C150_brier_agree C150_library rowI_input rowI_atMostZero (by norm_num) rescale

end Mlp.Props
