import Verif.Spec.Regr
import Verif.Lemmas.Flt
import Verif.Props.Curves
import Verif.Props.LossTable
import Mathlib.Probability.Distributions.Gaussian.Real

/-! # Properties C85 and C86: losses of Gaussian predictions -/

namespace Mlp.Props
open Mlp.Util Mlp.Spec Mlp.Regr

theorem allFinite_iff (a : Arr) : allFinite a = true ↔ ∀ v ∈ a.data, ∃ x : ℝ, v = .fin x := by
  unfold allFinite
  rw [List.all_eq_true]
  refine forall₂_congr fun v _ => ?_
  cases v <;> simp [Flt.isFinite]

/-- **C85, validation.**  `shape_and_validate` accepts exactly vectors of numbers of the same length, at least 1, with
positive standard deviations, and returns that length. -/
theorem C85_accepts (y mu std : Arr) (n : Nat) : Regr.shapeAndValidate y mu std = .ok n ↔ RegrInput y mu std n := by
  unfold Regr.shapeAndValidate
  simp only [bind_ok_iff, exists_unit, pyAssert_eq_ok, pure_eq_ok, Except.ok.injEq, Bool.and_eq_true, decide_eq_true_eq,
    allFinite_iff, List.all_eq_true, Flt.lt_iff]
  have hone : ∀ k, oneDim y = .ok k ↔ y.shape = [k] := by
    intro k
    unfold oneDim
    split
    · rename_i m h; rw [h]; simp
    · rename_i h; simp; exact fun e => h _ e
  constructor
  · rintro ⟨k, h1, h2, h3, h4, h5, h6, rfl⟩
    refine ⟨h2, ⟨(hone _).1 h1, h4⟩, ?_, fun v hv => (h6 v hv).2⟩
    rintro v (h | h | h)
    exacts [h3 v h, h5.1 v h, h5.2 v h]
  · rintro ⟨h1, h2, h3, h4⟩
    refine ⟨n, (hone _).2 h2.1, h1, fun v h => h3 v (Or.inl h), h2.2,
      ⟨fun v h => h3 v (Or.inr (Or.inl h)), fun v h => h3 v (Or.inr (Or.inr h))⟩, fun v h => ⟨?_, h4 v h⟩, rfl⟩
    obtain ⟨x, rfl⟩ := h3 v (Or.inr (Or.inr h))
    simp

theorem validate_error {y mu std : Arr} (h : ¬ ∃ n, RegrInput y mu std n) :
    Regr.shapeAndValidate y mu std = .error (if y.shape.length = 1 then .assertion else .valueError) := by
  cases he : Regr.shapeAndValidate y mu std with
  | ok n => exact absurd ⟨n, (C85_accepts ..).1 he⟩ h
  | error e =>
    rw [← he]
    unfold Regr.shapeAndValidate oneDim
    split
    · rename_i n hn
      rw [if_pos (by rw [hn]; rfl)]
      unfold Regr.shapeAndValidate oneDim at he
      rw [hn] at he
      simp only [ok_bind, pyAssert_bind] at he ⊢
      split_ifs at he ⊢ <;> first | rfl | (cases he)
    · rename_i hn
      rw [if_neg (fun e => (List.length_eq_one_iff.1 e).elim fun n e => hn n e)]
      rfl

/-- **C85, rejection.**  On all other input the three losses raise: a ValueError if the targets are not one-dimensional,
otherwise an AssertionError. -/
theorem C85_reject {y mu std : Arr} (h : ¬ ∃ n, RegrInput y mu std n) :
    ∀ loss ∈ [Regr.squareLoss, absLoss, Regr.logLoss],
      loss y mu std = .error (if y.shape.length = 1 then .assertion else .valueError) := by
  intro loss hl
  simp only [List.mem_cons, List.not_mem_nil, or_false] at hl
  rcases hl with rfl | rfl | rfl
  · unfold squareLoss; rw [validate_error h]; rfl
  · unfold absLoss; rw [validate_error h]; rfl
  · unfold Regr.logLoss; rw [validate_error h]; rfl

theorem regrInput_lengths {y mu std : Arr} {n : Nat} (h : RegrInput y mu std n) (hy : y.Ok) (hm : mu.Ok) (hs : std.Ok) :
    y.data.length = n ∧ mu.data.length = n ∧ std.data.length = n := by
  unfold Arr.Ok at hy hm hs
  rw [h.shapes.1] at hy
  rw [h.shapes.2.1] at hm
  rw [h.shapes.2.2] at hs
  simp only [List.prod_cons, List.prod_nil, mul_one] at hy hm hs
  exact ⟨hy, hm, hs⟩

theorem perPoint_zip2 {y mu std : Arr} {n : Nat} (h : RegrInput y mu std n) (hy : y.Ok) (hm : mu.Ok) (hs : std.Ok)
    {g : Flt ℝ → Flt ℝ → Flt ℝ} {f : ℝ → ℝ → ℝ → ℝ} (hg : ∀ a m s, g (.fin a) (.fin m) = .fin (f a m s)) :
    PerPoint f y mu std (List.zipWith g y.data mu.data) := by
  obtain ⟨l1, l2, -⟩ := regrInput_lengths h hy hm hs
  refine ⟨by rw [List.length_zipWith]; omega, fun i a m s ha hm' _ => ?_⟩
  rw [List.getElem?_zipWith, ha, hm', ← hg a m s]

/-- **C85, square loss.** -/
theorem C85_square {y mu std : Arr} {n : Nat} (h : RegrInput y mu std n) (hy : y.Ok) (hm : mu.Ok) (hs : std.Ok) :
    ∃ L, squareLoss y mu std = .ok L ∧ PerPoint (fun a m _ => (a - m) ^ 2) y mu std L := by
  refine ⟨List.zipWith (fun a b => (Flt.sub a b).mul (Flt.sub a b)) y.data mu.data, ?_, perPoint_zip2 h hy hm hs ?_⟩
  · unfold squareLoss; rw [(C85_accepts ..).2 h, ok_bind]; rfl
  · intro a m s; rw [Flt.sub_fin, Flt.mul_fin, sq]

/-- **C85, absolute loss.** -/
theorem C85_abs {y mu std : Arr} {n : Nat} (h : RegrInput y mu std n) (hy : y.Ok) (hm : mu.Ok) (hs : std.Ok) :
    ∃ L, absLoss y mu std = .ok L ∧ PerPoint (fun a m _ => |a - m|) y mu std L := by
  refine ⟨List.zipWith (fun a b => Paper.fabs (Flt.sub a b)) y.data mu.data, ?_, perPoint_zip2 h hy hm hs ?_⟩
  · unfold absLoss; rw [(C85_accepts ..).2 h, ok_bind]; rfl
  · intro a m s; rw [Flt.sub_fin]; rfl

/-- Minus the logarithm of the normal density. -/
noncomputable def gaussNLL (a m s : ℝ) : ℝ := Real.log s + Real.log (2 * Real.pi) / 2 + (a - m) ^ 2 / (2 * s ^ 2)

theorem normLogpdf_fin (a m : ℝ) {s : ℝ} (hs : 0 < s) : (normLogpdf (.fin a) (.fin m) (.fin s)).neg = .fin (gaussNLL a m s) := by
  unfold normLogpdf gaussNLL
  simp only [Flt.sub_fin, Flt.div_fin hs.ne', Flt.mul_fin, flog, if_pos hs]
  have : (Flt.fin (((a - m) / s) * ((a - m) / s))).neg = Flt.fin (-(((a - m) / s) * ((a - m) / s))) := rfl
  rw [this, Flt.div_fin (by norm_num), Flt.sub_fin, Flt.sub_fin]
  have e : ∀ x : ℝ, (Flt.fin x).neg = .fin (-x) := fun _ => rfl
  rw [e, Real.log_sqrt (by positivity)]
  congr 1
  field_simp
  ring

/-- **C85, log loss.** -/
theorem C85_log {y mu std : Arr} {n : Nat} (h : RegrInput y mu std n) (hy : y.Ok) (hm : mu.Ok) (hs : std.Ok) :
    ∃ L, Regr.logLoss y mu std = .ok L ∧
      PerPoint (fun a m s => Real.log s + Real.log (2 * Real.pi) / 2 + (a - m) ^ 2 / (2 * s ^ 2)) y mu std L := by
  obtain ⟨l1, l2, l3⟩ := regrInput_lengths h hy hm hs
  refine ⟨List.zipWith (fun (a : Flt ℝ) (ms : Flt ℝ × Flt ℝ) => (normLogpdf a ms.1 ms.2).neg) y.data
    (mu.data.zip std.data), ?_, ?_, ?_⟩
  · unfold Regr.logLoss; rw [(C85_accepts ..).2 h, ok_bind]; rfl
  · rw [List.length_zipWith, List.length_zip]; omega
  · intro i a m s ha hm' hs'
    have hpos : 0 < s := by
      have := h.positive _ (List.mem_of_getElem? hs')
      rwa [Flt.fin_lt_fin] at this
    have hz : (mu.data.zip std.data)[i]? = some (.fin m, .fin s) := by
      rw [List.zip, List.getElem?_zipWith, hm', hs']
    rw [List.getElem?_zipWith, ha, hz]
    simp only []
    rw [normLogpdf_fin a m hpos]
    rfl

/-- **C85, the log loss is minus the logarithm of the density of the predicted normal distribution.** -/
theorem C85_density (a m s : ℝ) (hs : 0 < s) :
    Real.log s + Real.log (2 * Real.pi) / 2 + (a - m) ^ 2 / (2 * s ^ 2) =
      -Real.log (ProbabilityTheory.gaussianPDFReal m (Real.toNNReal (s ^ 2)) a) := by
  unfold ProbabilityTheory.gaussianPDFReal
  have h2 : (0 : ℝ) < 2 * Real.pi * s ^ 2 := by positivity
  rw [Real.coe_toNNReal _ (sq_nonneg s), Real.log_mul (inv_ne_zero (Real.sqrt_pos.2 h2).ne') (Real.exp_pos _).ne',
    Real.log_inv, Real.log_exp]
  rw [Real.log_sqrt h2.le, Real.log_mul (x := 2 * Real.pi) (by positivity) (by positivity), Real.log_pow]
  push_cast
  ring

/-- **C85, relations.**  Square and absolute loss are at least 0, are 0 exactly where the mean is the target, and the square
loss is the square of the absolute loss. -/
theorem C85_square_abs {y mu std : Arr} {n : Nat} (h : RegrInput y mu std n) (hy : y.Ok) (hm : mu.Ok) (hs : std.Ok) :
    ∃ S A : List ℝ, squareLoss y mu std = .ok (finVec S) ∧ absLoss y mu std = .ok (finVec A) ∧
      S = A.map (fun (v : ℝ) => v ^ 2) ∧ (∀ v ∈ S, 0 ≤ v) ∧ (∀ v ∈ A, 0 ≤ v) ∧
      A.length = n ∧ ∀ (i : Nat) (hi : i < A.length), A[i] = 0 ↔ y.data[i]? = mu.data[i]? := by
  obtain ⟨l1, l2, l3⟩ := regrInput_lengths h hy hm hs
  obtain ⟨L, e1, p1⟩ := C85_square h hy hm hs
  obtain ⟨M, e2, p2⟩ := C85_abs h hy hm hs
  have hy' : ∀ i < n, ∃ a, y.data[i]? = some (.fin a) := by
    intro i hi
    obtain ⟨x, hx⟩ := h.numbers _ (Or.inl (List.getElem_mem (by omega : i < y.data.length)))
    exact ⟨x, by rw [List.getElem?_eq_getElem (by omega), hx]⟩
  have hm' : ∀ i < n, ∃ a, mu.data[i]? = some (.fin a) := by
    intro i hi
    obtain ⟨x, hx⟩ := h.numbers _ (Or.inr (Or.inl (List.getElem_mem (by omega : i < mu.data.length))))
    exact ⟨x, by rw [List.getElem?_eq_getElem (by omega), hx]⟩
  have hs' : ∀ i < n, ∃ a, std.data[i]? = some (.fin a) := by
    intro i hi
    obtain ⟨x, hx⟩ := h.numbers _ (Or.inr (Or.inr (List.getElem_mem (by omega : i < std.data.length))))
    exact ⟨x, by rw [List.getElem?_eq_getElem (by omega), hx]⟩
  choose! ya hya using hy'
  choose! ma hma using hm'
  choose! sa hsa using hs'
  have eL : L = finVec ((List.range n).map fun i => (ya i - ma i) ^ 2) := by
    refine List.ext_getElem? fun i => ?_
    by_cases hi : i < n
    · rw [p1.2 i _ _ _ (hya i hi) (hma i hi) (hsa i hi)]
      simp [finVec, hi]
    · rw [List.getElem?_eq_none (by rw [p1.1]; omega), List.getElem?_eq_none (by simp [finVec]; omega)]
  have eM : M = finVec ((List.range n).map fun i => |ya i - ma i|) := by
    refine List.ext_getElem? fun i => ?_
    by_cases hi : i < n
    · rw [p2.2 i _ _ _ (hya i hi) (hma i hi) (hsa i hi)]
      simp [finVec, hi]
    · rw [List.getElem?_eq_none (by rw [p2.1]; omega), List.getElem?_eq_none (by simp [finVec]; omega)]
  refine ⟨_, _, by rw [e1, eL], by rw [e2, eM], ?_, ?_, ?_, by simp, ?_⟩
  · simp
  · simp; intro _ _; positivity
  · simp
  · intro i hi
    have hi' : i < n := by simpa using hi
    rw [hya i hi', hma i hi']
    simp [sub_eq_zero]

/-! ### Examples -/

theorem regrInput_example : RegrInput (.vec [.fin 1, .fin 2]) (.vec [.fin 1, .fin 0]) (.vec [.fin 1, .fin 3]) 2 where
  nonempty := by norm_num
  shapes := ⟨rfl, rfl, rfl⟩
  numbers := by
    intro v hv
    simp only [Arr.vec, List.mem_cons, List.not_mem_nil, or_false] at hv
    rcases hv with (rfl | rfl) | (rfl | rfl) | rfl | rfl <;> exact ⟨_, rfl⟩
  positive := by
    intro v hv
    simp only [Arr.vec, List.mem_cons, List.not_mem_nil, or_false] at hv
    rcases hv with rfl | rfl <;> rw [Flt.fin_lt_fin] <;> norm_num

example : ∃ L, squareLoss (.vec [.fin 1, .fin 2]) (.vec [.fin 1, .fin 0]) (.vec [.fin 1, .fin 3]) = .ok L ∧
    L[1]? = some (.fin 4) := by
  obtain ⟨L, h1, h2⟩ := C85_square regrInput_example rfl rfl rfl
  refine ⟨L, h1, ?_⟩
  rw [h2.2 1 2 0 3 rfl rfl rfl]
  norm_num

/-- A standard deviation of 0. -/
example : absLoss (.vec [.fin 1]) (.vec [.fin 1]) (.vec [.fin 0]) = .error .assertion := by
  rw [C85_reject _ absLoss (by simp), if_pos (by simp [Arr.vec])]
  rintro ⟨n, h⟩
  exact absurd (h.positive (.fin 0) (by simp [Arr.vec])) (lt_irrefl _)

/-- Targets in a matrix. -/
example : squareLoss ⟨[1, 1], [.fin 1]⟩ (.vec [.fin 1]) (.vec [.fin 0]) = .error .valueError := by
  rw [C85_reject _ squareLoss (by simp), if_neg (by simp)]
  rintro ⟨n, h⟩
  simpa using h.shapes.1

end Mlp.Props
