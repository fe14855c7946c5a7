import Verif.Props.Summary
import Verif.Spec.Resample
import Mathlib.Algebra.BigOperators.Ring.Finset
import Mathlib.Algebra.BigOperators.Fin
import Mathlib.Tactic.FieldSimp
import Mathlib.Tactic.LinearCombination

/-! # C98: the bootstrap resamples without bias and with the right spread -/

set_option linter.unusedSectionVars false

namespace Mlp.Props
open Mlp.Paper Mlp.Spec Mlp.Boot Mlp.Lemmas
open scoped BigOperators

theorem drawCounts_isMultinomial {N : ℕ} (f : Fin N → Fin N) : IsMultinomial N (drawCounts f) := by
  unfold IsMultinomial drawCounts
  refine ⟨by simp, ?_⟩
  rw [List.sum_ofFn]
  have := Finset.card_eq_sum_card_fiberwise (f := f) (s := Finset.univ) (t := Finset.univ) (fun _ _ => by simp)
  simpa using this.symm

/-- The expected value of a product of functions of the single draws. -/
theorem meanDraw_prod {N : ℕ} (hN : 0 < N) (F : Fin N → Fin N → ℝ) :
    meanDraw (fun f => ∏ j, F j (f j)) = ∏ j, ((∑ a, F j a) / N) := by
  unfold meanDraw
  rw [Finset.prod_div_distrib, Finset.prod_const, Finset.card_univ, Fintype.card_fin, Fintype.prod_sum]

theorem meanDraw_one {N : ℕ} (hN : 0 < N) (j : Fin N) (g : Fin N → ℝ) :
    meanDraw (fun f => g (f j)) = (∑ a, g a) / N := by
  have h := meanDraw_prod hN (fun k a => if k = j then g a else 1)
  have h1 : ∀ f : Fin N → Fin N, (∏ k, if k = j then g (f k) else 1) = g (f j) := by
    intro f; rw [Finset.prod_ite_eq' Finset.univ j]; simp
  simp only [h1] at h
  rw [h, Finset.prod_eq_single j]
  · simp
  · intro k _ hk
    have : (N : ℝ) ≠ 0 := by positivity
    simp [hk, this]
  · simp

theorem meanDraw_two {N : ℕ} (hN : 0 < N) {j k : Fin N} (hjk : j ≠ k) (g h : Fin N → ℝ) :
    meanDraw (fun f => g (f j) * h (f k)) = (∑ a, g a) / N * ((∑ a, h a) / N) := by
  have e := meanDraw_prod hN (fun i a => if i = j then g a else if i = k then h a else 1)
  have h1 : ∀ f : Fin N → Fin N, (∏ i, if i = j then g (f i) else if i = k then h (f i) else 1) = g (f j) * h (f k) := by
    intro f
    rw [Finset.prod_eq_mul j k hjk]
    · simp [hjk.symm]
    · intro i _ hi; simp [hi.1, hi.2]
    · simp
    · simp
  simp only [h1] at e
  rw [e, Finset.prod_eq_mul j k hjk]
  · simp [hjk.symm]
  · intro i _ hi
    have : (N : ℝ) ≠ 0 := by positivity
    simp [hi.1, hi.2, this]
  · simp
  · simp

theorem meanDraw_sum {N : ℕ} {ι : Type} (s : Finset ι) (g : ι → (Fin N → Fin N) → ℝ) :
    meanDraw (fun f => ∑ i ∈ s, g i f) = ∑ i ∈ s, meanDraw (g i) := by
  unfold meanDraw
  rw [Finset.sum_comm, Finset.sum_div]

theorem meanDraw_div {N : ℕ} (g : (Fin N → Fin N) → ℝ) (c : ℝ) : meanDraw (fun f => g f / c) = meanDraw g / c := by
  unfold meanDraw
  rw [← Finset.sum_div]
  ring

/-- Mean and mean product of sums over the draws. -/
theorem meanDraw_draw_sum {N : ℕ} (hN : 0 < N) (g : Fin N → ℝ) :
    meanDraw (fun f => ∑ j, g (f j)) = ∑ a, g a := by
  rw [meanDraw_sum]
  simp only [meanDraw_one hN]
  rw [Finset.sum_const, Finset.card_univ, Fintype.card_fin, nsmul_eq_mul]
  have : (N : ℝ) ≠ 0 := by positivity
  field_simp

theorem meanDraw_draw_mul {N : ℕ} (hN : 0 < N) (g h : Fin N → ℝ) :
    meanDraw (fun f => (∑ j, g (f j)) * ∑ j, h (f j)) =
      ∑ a, g a * h a + (1 - 1 / (N : ℝ)) * ((∑ a, g a) * ∑ a, h a) := by
  have e : (fun f : Fin N → Fin N => (∑ j, g (f j)) * ∑ j, h (f j)) = fun f => ∑ j, ∑ k, g (f j) * h (f k) := by
    funext f; rw [Finset.sum_mul_sum]
  rw [e]
  simp only [meanDraw_sum]
  have hN0 : (N : ℝ) ≠ 0 := by positivity
  have inner : ∀ j : Fin N, ∑ k, meanDraw (fun f : Fin N → Fin N => g (f j) * h (f k)) =
      (∑ a, g a * h a) / N + ((N : ℝ) - 1) * ((∑ a, g a) / N * ((∑ a, h a) / N)) := by
    intro j
    rw [← Finset.add_sum_erase _ _ (Finset.mem_univ j), meanDraw_one hN j (fun a => g a * h a)]
    congr 1
    rw [Finset.sum_congr rfl fun k hk => meanDraw_two hN (Finset.ne_of_mem_erase hk).symm g h, Finset.sum_const,
      Finset.card_erase_of_mem (Finset.mem_univ j), Finset.card_univ, Fintype.card_fin, nsmul_eq_mul,
      Nat.cast_sub hN, Nat.cast_one]
  rw [Finset.sum_congr rfl fun j _ => inner j, Finset.sum_const, Finset.card_univ, Fintype.card_fin, nsmul_eq_mul]
  field_simp
  try ring

theorem card_as_sum {N : ℕ} (f : Fin N → Fin N) (i : Fin N) :
    (((Finset.univ.filter fun j => f j = i).card : ℕ) : ℝ) = ∑ j, if f j = i then 1 else 0 := by
  rw [Finset.card_filter]; push_cast; rfl

/-- **C98, weights.** `boot_weights(N, 1)`: the expected weight of each point is 1, its variance is `1 - 1/N`, and the
weights of two different points have covariance `-1/N`. -/
theorem C98_weights {N : ℕ} (hN : 1 ≤ N) (i k : Fin N) :
    ∃ w : (Fin N → Fin N) → Fin N → ℝ,
      (∀ f, bootWeights (N : Int) 1 (0 : ℝ) [drawCounts f] = .ok [List.ofFn (w f)]) ∧
      meanDraw (fun f => w f i) = 1 ∧
      meanDraw (fun f => (w f i - 1) ^ 2) = 1 - 1 / (N : ℝ) ∧
      (i ≠ k → meanDraw (fun f => (w f i - 1) * (w f k - 1)) = -(1 / (N : ℝ))) := by
  refine ⟨fun f i => ((Finset.univ.filter fun j => f j = i).card : ℕ), fun f => ?_, ?_, ?_, fun hik => ?_⟩
  · have := (C36_weights (K := ℝ) (N := N) (nBoot := 1) hN le_rfl (counts := [drawCounts f]) rfl
      (by simpa using drawCounts_isMultinomial f)).1
    rw [Nat.cast_one] at this
    rw [this]
    simp only [List.map_cons, List.map_nil]
    unfold drawCounts
    rw [List.map_ofFn]
    rfl
  · simp only [card_as_sum]
    rw [meanDraw_draw_sum hN (fun a => if a = i then 1 else 0)]
    simp
  all_goals
    have hN0 : (N : ℝ) ≠ 0 := by positivity
    have e1 : ∀ (f : Fin N → Fin N) (i : Fin N), (((Finset.univ.filter fun j => f j = i).card : ℕ) : ℝ) - 1 =
        ∑ j, ((if f j = i then 1 else 0) - 1 / (N : ℝ)) := by
      intro f i
      rw [Finset.sum_sub_distrib, ← card_as_sum, Finset.sum_const, Finset.card_univ, Fintype.card_fin, nsmul_eq_mul]
      field_simp
    have e0 : ∀ i : Fin N, ∑ a : Fin N, ((if a = i then 1 else 0) - 1 / (N : ℝ)) = 0 := by
      intro i
      rw [Finset.sum_sub_distrib, Finset.sum_const, Finset.card_univ, Fintype.card_fin, nsmul_eq_mul]
      simp [hN0]
    have e2 : ∀ i k : Fin N, ∑ a : Fin N, ((if a = i then 1 else 0) - 1 / (N : ℝ)) * ((if a = k then 1 else 0) - 1 / (N : ℝ)) =
        (if i = k then 1 else 0) - 1 / (N : ℝ) := by
      intro i k
      have : ∀ a : Fin N, ((if a = i then 1 else 0) - 1 / (N : ℝ)) * ((if a = k then 1 else 0) - 1 / (N : ℝ)) =
          (if a = i then (if i = k then 1 else 0) else 0) - 1 / (N : ℝ) * (if a = i then 1 else 0) -
            1 / (N : ℝ) * ((if a = k then 1 else 0) - 1 / (N : ℝ)) := by
        intro a
        by_cases h1 : a = i
        · subst h1; simp; ring
        · simp [h1]
      simp only [this, Finset.sum_sub_distrib, ← Finset.mul_sum]
      simp [hN0]
    simp only [e1, pow_two]
  · rw [meanDraw_draw_mul hN (fun a => (if a = i then 1 else 0) - 1 / (N : ℝ))
      (fun a => (if a = i then 1 else 0) - 1 / (N : ℝ)), e2, e0]
    simp
  · rw [meanDraw_draw_mul hN (fun a => (if a = i then 1 else 0) - 1 / (N : ℝ))
      (fun a => (if a = k then 1 else 0) - 1 / (N : ℝ)), e2, e0]
    simp [hik]

theorem zipWith_draw {xs : List ℝ} (f : Fin xs.length → Fin xs.length) :
    (List.zipWith (fun (a : ℝ) (b : Nat) => a * (b : ℝ)) xs (drawCounts f)).sum = ∑ j, xs[f j] := by
  have e : List.zipWith (fun (a : ℝ) (b : Nat) => a * (b : ℝ)) xs (drawCounts f) =
      List.ofFn fun i : Fin xs.length => xs[i] * (((Finset.univ.filter fun j => f j = i).card : ℕ) : ℝ) := by
    apply List.ext_getElem
    · simp [drawCounts]
    · intro i h1 h2
      simp [drawCounts]
  rw [e, List.sum_ofFn]
  simp only [card_as_sum, Finset.mul_sum]
  rw [Finset.sum_comm]
  apply Finset.sum_congr rfl
  intro j _
  simp

/-- **C98, resampled means.** Over the equally likely draws the mean of a resample has the mean of the data as its expected
value, and its variance is that of the data (divisor `N`) over `N`. -/
theorem C98_mean {xs : List ℝ} (hne : xs ≠ []) :
    ∃ m : (Fin xs.length → Fin xs.length) → ℝ, (∀ f, resampledMeans xs [drawCounts f] = [m f]) ∧
      meanDraw m = avg xs ∧
      meanDraw (fun f => (m f - avg xs) ^ 2) = sqDev xs / xs.length / xs.length := by
  have hN : 0 < xs.length := List.length_pos_iff.2 hne
  have hN0 : (xs.length : ℝ) ≠ 0 := by positivity
  have hsum : ∀ g : ℝ → ℝ, ∑ a : Fin xs.length, g xs[a] = (xs.map g).sum := by
    intro g
    rw [← List.sum_ofFn]
    congr 1
    apply List.ext_getElem <;> simp
  refine ⟨fun f => (∑ j, xs[f j]) / xs.length, fun f => ?_, ?_, ?_⟩
  · unfold resampledMeans
    simp only [List.map_cons, List.map_nil, zipWith_draw]
  · rw [meanDraw_div, meanDraw_draw_sum hN (fun a => xs[a]), hsum (fun x => x)]
    simp [avg]
  · have e : ∀ f : Fin xs.length → Fin xs.length, ((∑ j, xs[f j]) / xs.length - avg xs) ^ 2 =
        ((∑ j, (xs[f j] - avg xs)) * ∑ j, (xs[f j] - avg xs)) / xs.length / xs.length := by
      intro f
      rw [Finset.sum_sub_distrib, Finset.sum_const, Finset.card_univ, Fintype.card_fin, nsmul_eq_mul]
      field_simp
    simp only [e]
    rw [meanDraw_div, meanDraw_div, meanDraw_draw_mul hN (fun a => xs[a] - avg xs) (fun a => xs[a] - avg xs)]
    have z : ∑ a : Fin xs.length, (xs[a] - avg xs) = 0 := by
      rw [Finset.sum_sub_distrib, Finset.sum_const, Finset.card_univ, Fintype.card_fin, nsmul_eq_mul, hsum (fun x => x)]
      unfold avg
      simp only [List.map_id']
      field_simp
      ring
    rw [z, hsum (fun x => (x - avg xs) * (x - avg xs))]
    unfold sqDev
    simp only [pow_two]
    ring

/-- **C98, `boot_EB` with one replicate.** The mean square of the error bar is exactly the squared standard error of the mean
(with divisor `N`): the bar shows the spread of the mean, not that of the data, and it is not inflated by bias. -/
theorem C98_boot_EB {xs : List ℝ} (h2 : 2 ≤ xs.length) {c : ℝ} (h0 : 0 < c) (h1 : c < 1) :
    ∃ e : (Fin xs.length → Fin xs.length) → ℝ,
      (∀ f, bootEB (finVec xs) (.fin c) 1 [drawCounts f] = .ok (.fin (e f))) ∧ (∀ f, 0 ≤ e f) ∧
      meanDraw (fun f => e f ^ 2) = sqDev xs / xs.length / xs.length := by
  have hne : xs ≠ [] := by rintro rfl; simp at h2
  obtain ⟨m, hm, -, hv⟩ := C98_mean hne
  refine ⟨fun f => |m f - avg xs|, fun f => ?_, fun f => abs_nonneg _, by simpa only [sq_abs] using hv⟩
  obtain ⟨e, p, l, u, -, -, -, -, q1, -, -, q2, -⟩ := C48_shared h2 (nBoot := 1) (counts := [drawCounts f])
    ⟨le_rfl, rfl, by simpa using drawCounts_isMultinomial f⟩ h0 h1
  rw [q2]
  rw [hm f] at q1
  obtain ⟨e', l', u', r1, r2, r3, r4, -, r5, r6, r7, r8, -⟩ := C40_finite (xs := [m f]) (by simp) h0 h1 (avg xs)
  rw [q1] at r1
  simp only [Except.ok.injEq, Flt.fin.injEq] at r1
  subst r1
  simp only [List.mem_singleton] at r3 r4
  subst r3 r4
  congr 2
  show e = |m f - avg xs|
  rcases r8 with r8 | r8
  · rw [abs_of_nonpos (by linarith)]; linarith
  · rw [abs_of_nonneg (by linarith)]; linarith

/-- Two points: the four ways to draw. -/
example : meanDraw (fun f : Fin 2 → Fin 2 => (if f 0 = f 1 then (1 : ℝ) else 0)) = 1 / 2 := by
  unfold meanDraw
  rw [← (finTwoArrowEquiv (Fin 2)).symm.sum_comp, Fintype.sum_prod_type]
  simp [Fin.sum_univ_two]
  norm_num

/-- Data 1, 3: the mean square of the error bar is 1/2. -/
example : ∃ e : (Fin 2 → Fin 2) → ℝ, (∀ f, bootEB (finVec [1, 3]) (.fin (95 / 100)) 1 [drawCounts f] = .ok (.fin (e f))) ∧
    meanDraw (fun f => e f ^ 2) = 1 / 2 := by
  obtain ⟨e, h1, -, h2⟩ := C98_boot_EB (xs := [1, 3]) (by simp) (c := 95 / 100) (by norm_num) (by norm_num)
  refine ⟨e, h1, h2.trans ?_⟩
  simp [sqDev, avg]
  norm_num

end Mlp.Props
