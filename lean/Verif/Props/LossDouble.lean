import Verif.Props.LossRangeHard
import Verif.Props.LogLoss
import Verif.Props.TableDouble

/-! # Property C120: log loss, and all losses in double precision -/

namespace Mlp.Props
open Mlp.Util Mlp.Frame Mlp.PerfR Mlp.PaperR Mlp.CurveR Mlp.LossR Mlp.Spec Mlp.Lemmas Mlp.Round Mlp.Classif

/-- **C120, log loss.**  For log-probabilities up to 0 the log loss is the negative log-probability of the true label as stored, without
rounding: a number that is not negative, or plus infinity for an impossible label. -/
theorem C120_log {y : LabelVec} {p : Mat ℝ} (h : ClassInput y p) (hp : ∀ r ∈ p.rows, AtMostZero r) :
    ∃ l, logLoss y p = .ok l ∧ PerSample (fun r k v =>
      (r[k]? = some .ninf ∧ v = .pinf) ∨ ∃ x : ℝ, r[k]? = some (.fin x) ∧ v = .fin (-x) ∧ 0 ≤ -x) y p l := by
  unfold logLoss
  rw [validate_ok h, ok_bind, pick_ok h, ok_bind]
  refine ⟨_, rfl, ?_⟩
  rw [List.map_zipWith]
  refine perSample_of h _ ?_
  intro r hr k hk
  rw [Int.toNat_natCast]
  have hk' : k < r.length := by rw [h.rows r hr]; exact hk
  rw [getD_eq _ _ hk', List.getElem?_eq_getElem hk']
  rcases hp r hr _ (List.getElem_mem hk') with e | ⟨x, hx, e⟩
  · left; rw [e]; exact ⟨rfl, rfl⟩
  · right; rw [e]; exact ⟨x, rfl, rfl, by linarith⟩

/-- Double precision has the values and the signs that the theorems ask for. -/
theorem doubleLib_expLog : GoodExpLog doubleLib where
  exp_zero := by simp [doubleLib, binary64_floatRounding.one]
  exp_le_one x hx := by
    have := (binary64_floatRounding (K := ℝ)).mono (Real.exp_le_one_iff.2 hx)
    rwa [binary64_floatRounding.one] at this
  log_one := by simp [doubleLib, binary64_floatRounding.zero]
  log_nonneg x hx := binary64_floatRounding.nonneg (Real.log_nonneg hx)
  sqrt_nat n hn := by
    have e1 : binary64 (5 / 4 : ℝ) = 5 / 4 := by
      have := binary64_exact (K := ℝ) 5 (-2) (by norm_num)
      norm_num at this
      convert this using 2 <;> norm_num
    have e2 : binary64 (7 / 8 : ℝ) = 7 / 8 := by
      have := binary64_exact (K := ℝ) 7 (-3) (by norm_num)
      norm_num at this
      convert this using 2 <;> norm_num
    have hn' : (2 : ℝ) ≤ n := by exact_mod_cast hn
    have h1 : (5 / 4 : ℝ) ≤ Real.sqrt n := Real.le_sqrt_of_sq_le (by norm_num; linarith)
    have h2 := (binary64_floatRounding (K := ℝ)).mono h1
    rw [e1] at h2
    change binary64 (1 / binary64 (Real.sqrt n)) < 1
    have h3 : 1 / binary64 (Real.sqrt n) ≤ 7 / 8 := by
      rw [div_le_iff₀ (by linarith)]
      linarith
    have h4 := (binary64_floatRounding (K := ℝ)).mono h3
    rw [e2] at h4
    linarith

/-- An inner product in double precision: rounded products, added up in whatever order `doubleSum` has. -/
noncomputable def doubleDot (a b : List ℝ) : ℝ := doubleSum (List.zipWith (fun x y => binary64 (x * y)) a b)

/-- Rounded products added along a tree have a relative error of at most `(1 + u)^n - 1`. -/
theorem dotError_of {rnd : ℝ → ℝ} {sumR : List ℝ → ℝ} {u : ℝ} (hu : 0 ≤ u) (he : RelError u rnd) (hs : AddsAlongTrees rnd sumR)
    (n : Nat) : DotError ((1 + u) ^ n - 1) n fun a b => sumR (List.zipWith (fun x y => rnd (x * y)) a b) := by
  intro a b ha hb
  rcases Nat.eq_zero_or_pos n with h0 | hn
  · subst h0
    have : a = [] := List.length_eq_zero_iff.1 ha
    subst this
    simp [hs.1]
  set l := List.zipWith (fun x y => rnd (x * y)) a b with hl
  have hlen : l.length = n := by simp [hl, ha, hb]
  have hle := sum_error_signed hu he hs (l := l) (by rintro h; rw [h] at hlen; simp at hlen; omega)
  have e : ∀ f : ℝ → ℝ, (l.map f).sum = ∑ i ∈ Finset.range n, f (rnd (a.getD i 0 * b.getD i 0)) := by
    intro f
    rw [sum_range (l.map f), List.length_map, hlen]
    refine Finset.sum_congr rfl fun i hi => ?_
    have hi' := Finset.mem_range.1 hi
    rw [pr, getD_eq _ _ (by simpa [hlen] using hi'), List.getElem_map, getD_eq a _ (by rw [ha]; exact hi'), getD_eq b _ (by rw [hb]; exact hi')]
    simp [hl]
  have e0 : l.sum = ∑ i ∈ Finset.range n, rnd (a.getD i 0 * b.getD i 0) := by
    have := e id
    rwa [List.map_id] at this
  rw [e0, e (fun v => |v|), hlen] at hle
  have hB : ∀ x : ℝ, |rnd x| ≤ (1 + u) * |x| := by
    intro x
    have h1 := he x
    have h2 := abs_sub_abs_le_abs_sub (rnd x) x
    linarith
  have h1 : ∑ i ∈ Finset.range n, |rnd (a.getD i 0 * b.getD i 0)| ≤ (1 + u) * ∑ i ∈ Finset.range n, |a.getD i 0 * b.getD i 0| := by
    rw [Finset.mul_sum]
    exact Finset.sum_le_sum fun i _ => hB _
  have h2 : |∑ i ∈ Finset.range n, rnd (a.getD i 0 * b.getD i 0) - ∑ i ∈ Finset.range n, a.getD i 0 * b.getD i 0| ≤
      u * ∑ i ∈ Finset.range n, |a.getD i 0 * b.getD i 0| := by
    rw [← Finset.sum_sub_distrib, Finset.mul_sum]
    exact (Finset.abs_sum_le_sum_abs _ _).trans (Finset.sum_le_sum fun i _ => he _)
  have hp : (1 : ℝ) ≤ (1 + u) ^ (n - 1) := one_le_pow₀ (by linarith)
  have hpow : (1 + u) ^ n = (1 + u) ^ (n - 1) * (1 + u) := by rw [← pow_succ]; congr 1; omega
  have h3 := mul_le_mul_of_nonneg_left h1 (show 0 ≤ (1 + u) ^ (n - 1) - 1 by linarith)
  have h4 := abs_sub_le (sumR l) (∑ i ∈ Finset.range n, rnd (a.getD i 0 * b.getD i 0)) (∑ i ∈ Finset.range n, a.getD i 0 * b.getD i 0)
  rw [hpow]
  linarith [hle, h2, h3, h4]

theorem doubleDot_error (n : Nat) : DotError ((1 + 1 / 2 ^ 53) ^ n - 1) n doubleDot :=
  dotError_of (by norm_num) binary64_relError doubleSum_trees n

/-- **C120, zero-one loss in double precision.**  With up to a million labels, certainty of the true label costs 0, certainty of another
label costs 1. -/
theorem C120_zero_one_double {y : LabelVec} {p : Mat ℝ} (h : ClassInput y p) (hp : ∀ r ∈ p.rows, ∃ j, Certain r j)
    (hn : p.ncols ≤ 1000000) :
    ∃ l, hardLossR doubleLib doubleDot none y p = .ok l ∧ PerSample (fun r k v => (Certain r k → v = .fin 0) ∧
      (CertainlyNot r k → v = .fin 1)) y p l := by
  refine C120_zero_one_certain doubleLib_expLog h hp (g := (1 + 1 / 2 ^ 53) ^ p.ncols - 1) ?_ (doubleDot_error _)
  have h1 : (1 + 1 / 2 ^ 53 : ℝ) ^ p.ncols ≤ Real.exp (p.ncols * (1 / 2 ^ 53)) := by
    rw [Real.exp_nat_mul]
    exact pow_le_pow_left₀ (by norm_num) (by rw [add_comm]; exact Real.add_one_le_exp _) _
  have h2 : (p.ncols : ℝ) * (1 / 2 ^ 53) ≤ 1 / 2 := by
    have : (p.ncols : ℝ) ≤ 1000000 := by exact_mod_cast hn
    calc (p.ncols : ℝ) * (1 / 2 ^ 53) ≤ 1000000 * (1 / 2 ^ 53) := by gcongr
      _ ≤ 1 / 2 := by norm_num
  have h3 : Real.exp (1 / 2) < 2 := by
    have h5 : Real.exp (1 / 2) * Real.exp (-(1 / 2)) = 1 := by rw [← Real.exp_add]; norm_num
    have := Real.add_one_lt_exp (show (-(1 / 2) : ℝ) ≠ 0 by norm_num)
    nlinarith [Real.exp_pos (1 / 2 : ℝ)]
  have := Real.exp_le_exp.2 h2
  linarith

/-! ## A concrete case: three labels, two samples, in double precision -/

/-- One row with possible and impossible labels, one that is certain. -/
noncomputable def threeRows : Mat ℝ := ⟨3, [[.fin (-1 / 2), .fin (-2), .ninf], [.fin 0, .ninf, .ninf]]⟩

theorem threeRows_input : ClassInput ⟨'i', [1, 0]⟩ threeRows :=
  ⟨.inr rfl, by simp [threeRows], by simp [threeRows], rfl, by simp [threeRows], by simp [threeRows]⟩

theorem threeRows_zero : ∀ r ∈ threeRows.rows, AtMostZero r := by
  intro r hr v hv
  simp only [threeRows, List.mem_cons, List.not_mem_nil, or_false] at hr
  rcases hr with rfl | rfl <;> simp only [List.mem_cons, List.not_mem_nil, or_false] at hv
  · rcases hv with rfl | rfl | rfl
    · exact .inr ⟨_, by norm_num, rfl⟩
    · exact .inr ⟨_, by norm_num, rfl⟩
    · exact .inl rfl
  · rcases hv with rfl | rfl | rfl
    · exact .inr ⟨_, le_rfl, rfl⟩
    · exact .inl rfl
    · exact .inl rfl

theorem threeRows_proper : ∀ r ∈ threeRows.rows, Proper r := by
  intro r hr
  refine ⟨atMostZero_logProbs (threeRows_zero r hr), ?_⟩
  simp only [threeRows, List.mem_cons, List.not_mem_nil, or_false] at hr
  rcases hr with rfl | rfl
  · exact ⟨_, by simp; left; rfl⟩
  · exact ⟨0, by simp⟩

theorem threeRows_float : ∀ r ∈ threeRows.rows, FloatRow binary64 r := by
  intro r hr x hx
  simp only [threeRows, List.mem_cons, List.not_mem_nil, or_false] at hr
  have e1 : binary64 (-1 / 2 : ℝ) = -1 / 2 := by
    have := binary64_exact (K := ℝ) (-1) (-1) (by norm_num)
    norm_num at this
    convert this using 2 <;> norm_num
  have e2 : binary64 (-2 : ℝ) = -2 := by
    have := binary64_exact (K := ℝ) (-2) 0 (by norm_num)
    norm_num at this
    exact this
  rcases hr with rfl | rfl <;> simp at hx
  · rcases hx with rfl | rfl
    · exact e1
    · exact e2
  · rw [hx]; exact binary64_floatRounding.zero

example : ∃ q, normalizeRowsR doubleLib threeRows = .ok q ∧ (∀ r ∈ q.rows, AtMostZero r) := by
  obtain ⟨q, h, -, h2⟩ := C120_normalize doubleLib_good doubleLib_expLog (p := threeRows) (by simp [threeRows]) threeRows_proper
    threeRows_float
  refine ⟨q, h, fun r' hr' => ?_⟩
  obtain ⟨i, hi, rfl⟩ := List.mem_iff_getElem.1 hr'
  have := (List.forall₂_iff_get.1 h2).2 i (by rw [h2.length_eq]; exact hi) hi
  exact this.2.2.2.1

example : ∃ l, brierLossR doubleLib true ⟨'i', [1, 0]⟩ threeRows = .ok l ∧ l.length = 2 := by
  obtain ⟨l, h, h2⟩ := C120_brier doubleLib_good doubleLib_expLog threeRows_input threeRows_zero
    (fun k hk => binary64_nat (n := 3) (by norm_num) k hk) true
  exact ⟨l, h, h2.1⟩

example : ∃ l, sphericalLossR doubleLib true ⟨'i', [1, 0]⟩ threeRows = .ok l ∧ l.length = 2 := by
  obtain ⟨-, l, h, h2⟩ := C120_sphere doubleLib_good doubleLib_expLog threeRows_input threeRows_proper threeRows_float true
  exact ⟨l, h, h2.1⟩

example : ∃ l, logLoss ⟨'i', [1, 0]⟩ threeRows = .ok l ∧ l.length = 2 := by
  obtain ⟨l, h, h2⟩ := C120_log threeRows_input threeRows_zero
  exact ⟨l, h, h2.1⟩

/-- Being sure of a label costs twice as much as being right is worth. -/
example : ∃ l, hardLossR doubleLib doubleDot (some (finMat 2 [[0, 2], [1, 0], [1, 1]])) ⟨'i', [1, 0]⟩ threeRows = .ok l ∧
    l.length = 2 := by
  obtain ⟨l, h, h2⟩ := C120_near_optimal (L := doubleLib) (dotR := doubleDot) threeRows_input
    (fun r hr => atMostZero_logProbs (threeRows_zero r hr)) (m := 2) (by norm_num) (M := [[0, 2], [1, 0], [1, 1]])
    (by simp [threeRows]) (by simp) (doubleDot_error 3)
  exact ⟨l, h, h2.1⟩

/-- One sample is certainly right, one certainly wrong. -/
noncomputable def sureRows : Mat ℝ := ⟨3, [[.ninf, .fin 0, .ninf], [.fin 0, .ninf, .ninf]]⟩

theorem sureRows_certain : ∀ r ∈ sureRows.rows, ∃ j, Certain r j := by
  intro r hr
  simp only [sureRows, List.mem_cons, List.not_mem_nil, or_false] at hr
  rcases hr with rfl | rfl
  · refine ⟨1, by simp, fun j hj => ?_⟩
    have hj : j < 3 := hj
    interval_cases j <;> rfl
  · refine ⟨0, by simp, fun j hj => ?_⟩
    have hj : j < 3 := hj
    interval_cases j <;> rfl

theorem sureRows_input : ClassInput ⟨'i', [1, 2]⟩ sureRows :=
  ⟨.inr rfl, by simp [sureRows], by simp [sureRows], rfl, by simp [sureRows], by simp [sureRows]⟩

example : hardLossR doubleLib doubleDot none ⟨'i', [1, 2]⟩ sureRows = .ok [.fin 0, .fin 1] := by
  obtain ⟨l, h, h1, h2⟩ := C120_zero_one_double sureRows_input sureRows_certain (by simp [sureRows])
  obtain ⟨v, e1, h3, -⟩ := h2 0 1 _ rfl rfl
  obtain ⟨w, e2, -, h4⟩ := h2 1 2 _ rfl rfl
  have hc : ∀ r ∈ sureRows.rows, ∃ j, Certain r j := sureRows_certain
  have hv := h3 ⟨by simp, fun j hj => by have hj : j < 3 := hj; interval_cases j <;> rfl⟩
  have hw := h4 ⟨0, by norm_num, by simp, fun j hj => by have hj : j < 3 := hj; interval_cases j <;> rfl⟩
  rw [h]
  subst hv hw
  have hl : l.length = 2 := h1
  congr 1
  apply List.ext_getElem?
  intro i
  rcases i with _ | _ | i
  · rw [e1]; rfl
  · rw [e2]; rfl
  · simp [hl]

end Mlp.Props
