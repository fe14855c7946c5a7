import Verif.Props.ClassIeeeBrier

/-! # Property C150, what `normalize` computes for entries of moderate size, and which inputs raise -/

namespace Mlp.Props
open Mlp.Util Mlp.Frame Mlp.PerfR Mlp.PaperR Mlp.CurveR Mlp.LossR Mlp.Spec Mlp.Lemmas Mlp.Round Mlp.RegrI Mlp.ClassI

variable {L : Lib ℝ}

theorem sub_small {x y : ℝ} (hx : |x| ≤ 2 ^ 1001) (hy : |y| ≤ 2 ^ 1001) : |x - y| ≤ 2 ^ 1023 := by
  refine small_of_le (n := 1002) (by norm_num) ((abs_sub _ _).trans ?_)
  rw [pow_succ]
  generalize (2 : ℝ) ^ 1001 = T at *
  linarith

theorem small_step {x : ℝ} (h : |x| ≤ 2 ^ 1000) : |x| ≤ 2 ^ 1001 := h.trans (pow_le_pow_right₀ (by norm_num) (by norm_num))

theorem iF_sub_small (hL : IeeeExpLog L) {r : List (Flt ℝ)} (h : Proper r) (hb : ∀ x : ℝ, .fin x ∈ r → |x| ≤ 2 ^ 1000) {z : ℝ}
    (hz : |z| ≤ 2 ^ 1001) {v : Flt ℝ} (hv : v ∈ r) : iF (v.sub (.fin z)) = rF L.rnd (v.sub (.fin z)) := by
  cases v with
  | fin x => rw [Flt.sub_fin, iF_small (sub_small (small_step (hb x hv)) hz), hL.rnd]; rfl
  | ninf => rfl
  | pinf => exact absurd rfl (h.1 _ hv).2
  | nan => exact absurd rfl (h.1 _ hv).1

/-- **C150, `normalize` without overflow.**  If no entry exceeds `2 ^ 1000` in absolute value, `normalize` returns what it would return if there
were no largest exponent. -/
theorem C150_normalize_agree (hL : IeeeExpLog L) {p : Mat ℝ} (hp : ∀ r ∈ p.rows, Proper r) (hf : ∀ r ∈ p.rows, DoubleRow r)
    (hn : ∀ r ∈ p.rows, r.length ≤ 2 ^ 53) (hb : ∀ r ∈ p.rows, ∀ x : ℝ, .fin x ∈ r → |x| ≤ 2 ^ 1000) :
    normalizeRowsI L p = normalizeRowsR L p := by
  unfold normalizeRowsI normalizeRowsR
  have e : (p.rows.map fun r => r.map fun v => iF (v.sub (logsumexpI L r))) =
      p.rows.map fun r => r.map fun v => rF L.rnd (v.sub (logsumexpR L r)) := by
    refine List.map_congr_left fun r hr => ?_
    obtain ⟨m, z, hm, -, hz, -, hz1, hz2, hs, hmax⟩ := logsumexpI_ge hL (hp r hr) (hf r hr) (hn r hr)
    have hmb := hb r hr m hm
    have hz3 : |z| ≤ 2 ^ 1001 := by
      obtain ⟨a, b⟩ := abs_le.1 hmb
      have h11 : (2 : ℝ) ^ 11 ≤ 2 ^ 1000 := pow_le_pow_right₀ (by norm_num) (by norm_num)
      rw [pow_succ, abs_le]
      generalize (2 : ℝ) ^ 1000 = T at *
      generalize (2 : ℝ) ^ 11 = A at *
      constructor <;> linarith
    have hl : logsumexpI L r = logsumexpR L r := by
      have e1 : (r.map fun v => fexpR L (iF (v.sub (.fin m)))) = r.map fun v => fexpR L (rF L.rnd (v.sub (.fin m))) :=
        List.map_congr_left fun v hv => by rw [iF_sub_small hL (hp r hr) (hb r hr) (small_step hmb) hv]
      have hz' := hz
      unfold logsumexpI at hz' ⊢
      unfold logsumexpR
      rw [hmax] at hz' ⊢
      simp only [Flt.isFinite, if_true] at hz' ⊢
      rw [← e1]
      generalize flogR L (sumFR L.sum (r.map fun v => fexpR L (iF (v.sub (.fin m))))) = w at hz' ⊢
      cases w with
      | fin s =>
        rw [Flt.add_fin] at hz' ⊢
        rw [hz', hL.rnd]
        exact congrArg Flt.fin (ieee64_fin_iff.1 (show ieee64 (s + m) = .fin z from hz')).1.symm
      | ninf => cases hz'
      | pinf => cases hz'
      | nan => cases hz'
    rw [hl] at hz ⊢
    rw [hz]
    exact List.map_congr_left fun v hv => iF_sub_small hL (hp r hr) (hb r hr) hz3 hv
  rw [e]

/-- **C150, `normalize` without labels.**  It raises if there are no columns. -/
theorem C150_normalize_reject {p : Mat ℝ} (h : p.ncols = 0) : normalizeRowsI L p = .error .assertion := by
  rw [normalizeRowsI, pyAssert_bind, h]; rfl

/-- **C150, Brier loss of invalid input.**  It raises on the same input as with exact numbers. -/
theorem C150_brier_reject {y : LabelVec} {p : Mat ℝ} (hp : p.Ok) (h : ¬ ClassInput y p) (rescale : Bool) :
    brierLossI L rescale y p = .error .assertion := by
  unfold brierLossI
  rw [Lemmas.validate_error hp h]; rfl

example : normalizeRowsI ieeeLib ⟨3, [rowI]⟩ = normalizeRowsR ieeeLib ⟨3, [rowI]⟩ := by
  refine C150_normalize_agree C150_library (by simpa using rowI_proper) (by simpa using rowI_doubles) (by simp [rowI]) ?_
  intro r hr x hx
  simp only [List.mem_singleton] at hr
  subst hr
  have h1 : (1 : ℝ) ≤ 2 ^ 1000 := one_le_pow₀ (by norm_num)
  simp only [rowI, List.mem_cons, Flt.fin.injEq, List.not_mem_nil, or_false, reduceCtorEq, false_or] at hx
  rcases hx with rfl | rfl
  · rw [abs_zero]; exact zero_le_one.trans h1
  · rw [abs_neg, abs_one]; exact h1

example (rescale : Bool) : brierLossI ieeeLib rescale ⟨'i', [3]⟩ ⟨3, [rowI]⟩ = .error .assertion := by
  refine C150_brier_reject (by simp [Mat.Ok, rowI]) (fun h => ?_) rescale
  have := (h.range 3 (by simp)).2
  simp at this

end Mlp.Props
