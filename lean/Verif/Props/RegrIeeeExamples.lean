import Verif.Props.RegrIeee
import Verif.Props.RegrNoiseRound

/-!
# Cases for property C149: losses of regressors in IEEE 754 double precision
-/

namespace Mlp.Props
open Mlp.Util Mlp.Spec Mlp.Regr Mlp.LossR Mlp.PaperR Mlp.PerfR Mlp.Round Mlp.Lemmas Mlp.RegrI

/-- The logarithm of a positive double is at most 1024 in absolute value. -/
theorem log_double_le {s : ℝ} (hs : 0 < s) (h : IsBinary64 s) : |Real.log s| ≤ 2 ^ 10 := by
  have hl2 : Real.log 2 ≤ 7 / 10 := Real.log_two_lt_d9.le.trans (by norm_num)
  have hu : s ≤ 2 ^ 1024 := (le_abs_self s).trans ((double_lt h).le.trans (sub_le_self _ (by positivity)))
  obtain ⟨k, hk⟩ := isBinary64_grid h
  have hk1 : (1 : ℝ) ≤ s * 2 ^ 1074 := by
    rw [hk]
    have : (0 : ℝ) < k := by rw [← hk]; positivity
    have : 0 < k := by exact_mod_cast this
    exact_mod_cast this
  have h1 := Real.log_le_log hs hu
  have h2 := Real.log_nonneg hk1
  rw [Real.log_pow] at h1
  rw [Real.log_mul hs.ne' (by positivity), Real.log_pow] at h2
  rw [_root_.abs_le]
  push_cast at h1 h2
  constructor <;> norm_num <;> linarith

/-- **C149, library.**  With correctly rounded logarithms and roots, all double standard deviations and the constant of the log density have the bounds that the theorems on the log loss need. -/
theorem C149_library {std : Arr} (hd : Doubles std) (hp : ∀ s : ℝ, Flt.fin s ∈ std.data → 0 < s) :
    |normLogCR doubleLib| ≤ 2 ^ 10 ∧ ∀ s : ℝ, Flt.fin s ∈ std.data → |doubleLib.log s| ≤ 2 ^ 10 := by
  constructor
  · have h1 := normLogCR_double
    have h2 : Real.log (2 * Real.pi) ≤ 2 * Real.pi - 1 := Real.log_le_sub_one_of_pos (by positivity)
    have h3 : 0 ≤ Real.log (2 * Real.pi) := Real.log_nonneg (by linarith [Real.pi_gt_three])
    have h4 := Real.pi_lt_four
    rw [_root_.abs_le] at h1 ⊢
    have h5 : 1 / 10 ^ 15 * (Real.log (2 * Real.pi) / 2) ≤ Real.log (2 * Real.pi) / 2 := mul_le_of_le_one_left (by linarith) (by norm_num)
    constructor <;> norm_num <;> linarith
  · intro s hs
    exact binary64_abs_le (log_double_le (hp s hs) (hd s hs))

theorem singleton_point {R : ℝ → ℝ → ℝ → Flt ℝ → Prop} {a m s : ℝ} {l : List (Flt ℝ)} (h : PerPointI R (realArr [a]) (realArr [m]) (realArr [s]) l) :
    ∃ v, l = [v] ∧ R a m s v := by
  obtain ⟨v, h1, h2⟩ := h.2 0 a m s (by simp [realArr]) (by simp [realArr]) (by simp [realArr])
  have hl : l.length = 1 := h.1
  obtain ⟨w, rfl⟩ := List.length_eq_one_iff.1 hl
  simp only [List.getElem?_cons_zero, Option.some.injEq] at h1
  exact ⟨v, by rw [h1], h2⟩

theorem singleton_input (a m : ℝ) {s : ℝ} (hs : 0 < s) : RegrInput (realArr [a]) (realArr [m]) (realArr [s]) 1 :=
  realArr_input (ys := [a]) (ms := [m]) (ss := [s]) (by simp) rfl rfl (by simpa using hs)

theorem singleton_doubles {a : ℝ} (h : IsBinary64 a) : Doubles (realArr [a]) := by
  intro x hx
  simp [realArr] at hx
  rwa [hx]

/-- Two means for one target raise an AssertionError. -/
example : squareLossI (realArr [1]) (realArr [1, 2]) (realArr [1]) = .error .assertion := by
  have h := C149_reject (L := doubleLib) (y := realArr [1]) (mu := realArr [1, 2]) (std := realArr [1]) (by
    rintro ⟨n, h⟩
    have h1 := h.shapes.1
    have h2 := h.shapes.2.1
    simp [realArr] at h1 h2
    omega) squareLossI (by simp)
  simpa [realArr] using h

/-- The absolute loss of the two largest powers of two on either side of 0 is plus infinity. -/
example : absLossI (realArr [2 ^ 1023]) (realArr [-2 ^ 1023]) (realArr [1]) = .ok [.pinf] := by
  obtain ⟨l, h1, h2⟩ := C149_abs (singleton_input (2 ^ 1023) (-2 ^ 1023) one_pos) (realArr_ok _) (realArr_ok _) (realArr_ok _)
    (singleton_doubles (pow_double (by norm_num))) (singleton_doubles (by
      obtain ⟨k, e, a1, a2, a3, a4⟩ := pow_double (e := 1023) (by norm_num)
      exact ⟨-k, e, by rwa [abs_neg], a2, a3, by rw [a4]; push_cast; ring⟩))
  obtain ⟨v, rfl, h3, -⟩ := singleton_point h2
  rw [h1]
  have e0 : |(2 : ℝ) ^ 1023 - -2 ^ 1023| = 2 ^ 1024 := by
    rw [sub_neg_eq_add, abs_of_pos (by positivity), ← two_mul, ← pow_succ']
  rw [e0] at h3
  have hB := big_pos
  have hC : (2 : ℝ) ^ 1024 - 2 ^ 970 ≤ 2 ^ 1024 := sub_le_self _ (by positivity)
  rcases h3 with ⟨rfl, -⟩ | ⟨-, h4⟩ | ⟨w, -, h4, -⟩
  · rfl
  · exact absurd h4 (not_le.2 ((neg_neg_of_pos hB).trans (by positivity)))
  · rw [abs_of_pos (by positivity)] at h4
    exact absurd h4 (not_lt.2 hC)

/-- The square loss of a difference of `2 ^ 600` is plus infinity, and that of a difference of `2 ^ -600` is 0. -/
example : squareLossI (realArr [2 ^ 600]) (realArr [0]) (realArr [1]) = .ok [.pinf] ∧
    squareLossI (realArr [2 ^ (-600 : Int)]) (realArr [0]) (realArr [1]) = .ok [.fin 0] := by
  constructor
  · obtain ⟨l, h1, h2⟩ := C149_square (singleton_input (2 ^ 600) 0 one_pos) (realArr_ok _) (realArr_ok _) (realArr_ok _)
    obtain ⟨v, rfl, -, -, -, h3, -⟩ := singleton_point h2
    rw [h1, h3]
    rw [sub_zero, abs_of_pos (by positivity)]
    exact pow_le_pow_right₀ (by norm_num) (by norm_num)
  · obtain ⟨l, h1, h2⟩ := C149_square (singleton_input (2 ^ (-600 : Int)) 0 one_pos) (realArr_ok _) (realArr_ok _) (realArr_ok _)
    obtain ⟨v, rfl, -, -, -, -, -, h3, -⟩ := singleton_point h2
    rw [h1, h3]
    rw [sub_zero, abs_of_pos (by positivity)]
    exact zpow_le_zpow_right₀ (by norm_num) (by norm_num)

/-- A mean that is two standard deviations off has an infinite log loss if the difference is too large for a double. -/
example : logLossI doubleLib (realArr [2 ^ 1023]) (realArr [-2 ^ 1023]) (realArr [2 ^ 1023]) = .ok [.pinf] := by
  have hd := singleton_doubles (pow_double (e := 1023) (by norm_num))
  obtain ⟨hc, hl⟩ := C149_library hd (by
    intro s hs
    simp [realArr] at hs
    rw [hs]; positivity)
  obtain ⟨l, h1, h2⟩ := C149_log (L := doubleLib) (singleton_input (2 ^ 1023) (-2 ^ 1023) (s := 2 ^ 1023) (by positivity)) (realArr_ok _) (realArr_ok _) (realArr_ok _) hd hc hl
  obtain ⟨v, rfl, -, -, h3, -⟩ := singleton_point h2
  rw [h1, h3]
  rw [sub_neg_eq_add, abs_of_pos (by positivity), ← two_mul, ← pow_succ']
  exact sub_le_self _ (by positivity)

/-- A mean of 1 is closer to the target 2 than a mean of `2 ^ 1000`. -/
example : ∃ l l', logLossI doubleLib (realArr [2]) (realArr [1]) (realArr [4]) = .ok l ∧ logLossI doubleLib (realArr [2]) (realArr [2 ^ 1000]) (realArr [4]) = .ok l' ∧
    List.Forall₂ (· ≤ ·) l l' := by
  obtain ⟨hc, hl⟩ := C149_library (std := realArr [4]) (singleton_doubles ⟨4, 0, by norm_num, by norm_num, by norm_num, by norm_num⟩) (by
    intro s hs
    simp [realArr] at hs
    rw [hs]; norm_num)
  refine C149_closer (singleton_input 2 1 (by norm_num)) (singleton_input 2 (2 ^ 1000) (by norm_num)) (realArr_ok _) (realArr_ok _) (realArr_ok _) (realArr_ok _) hc hl ?_ _ (by simp)
  intro i a m m' h1 h2 h3
  cases i with
  | zero =>
    simp [realArr] at h1 h2 h3
    subst h1 h2 h3
    have : (2 : ℝ) ^ 2 ≤ 2 ^ 1000 := pow_le_pow_right₀ (by norm_num) (by norm_num)
    generalize (2 : ℝ) ^ 1000 = T at *
    have h2 := le_abs_self (T - 2)
    rw [abs_sub_comm 2 T]
    norm_num at this ⊢
    linarith
  | succ i => simp [realArr] at h1

end Mlp.Props
