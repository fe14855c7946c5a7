import Mathlib.Probability.Moments.SubGaussian
import Mathlib.Probability.Independence.InfinitePi

/-!
# Hoeffding's bound for averages over all pairs of two samples

Hoeffding (1963), section 5: the average over all pairs is an average, over the cyclic shifts, of averages over disjoint pairs.
-/

namespace Mlp.Lemmas
open MeasureTheory ProbabilityTheory
open scoped NNReal

variable {S Ω : Type} [MeasurableSpace S] [MeasurableSpace Ω] {P : Measure Ω} [IsProbabilityMeasure P]

/-- A sum of sub-Gaussian variables that may depend on each other. -/
theorem subG_sum {ι : Type} (s : Finset ι) {X : ι → Ω → ℝ} {c : ℝ≥0} (h : ∀ i ∈ s, HasSubgaussianMGF (X i) c P) :
    HasSubgaussianMGF (fun ω => ∑ i ∈ s, X i ω) ((s.card : ℝ≥0) ^ 2 * c) P := by
  classical
  induction s using Finset.induction_on with
  | empty => simp
  | insert i s hi ih =>
    have := (h i (by simp)).add (ih fun j hj => h j (by simp [hj]))
    simp only [Finset.sum_insert hi, Finset.card_insert_of_notMem hi]
    convert this using 1
    rw [NNReal.sqrt_mul, NNReal.sqrt_sq]
    push_cast
    have e : c = NNReal.sqrt c ^ 2 := (NNReal.sq_sqrt c).symm
    nth_rewrite 1 [e]
    ring

/-- Functions of disjoint pairs of independent variables are independent. -/
theorem indep_pairs {κ : Type} [Finite κ] {n : ℕ} {draw : Fin n → Ω → S} (hm : ∀ i, Measurable (draw i)) (hi : iIndepFun draw P) {u v : κ → Fin n}
    (hu : Function.Injective u) (hv : Function.Injective v) (huv : ∀ i j, u i ≠ v j) {F : S × S → ℝ} (hF : Measurable F) :
    iIndepFun (fun k ω => F (draw (u k) ω, draw (v k) ω)) P := by
  let w : (Σ _ : κ, Bool) → Fin n := fun p => if p.2 then u p.1 else v p.1
  have hw : Function.Injective w := by
    rintro ⟨a, x⟩ ⟨b, y⟩ h
    cases x <;> cases y <;> simp only [w, if_true, Bool.false_eq_true, if_false] at h
    · rw [hv h]
    · exact absurd h.symm (huv _ _)
    · exact absurd h (huv _ _)
    · rw [hu h]
  have hX := hi.precomp hw
  have : ∀ i, IsProbabilityMeasure (P.map (draw i)) := fun i => Measure.isProbabilityMeasure_map (hm i).aemeasurable
  have key : iIndepFun (fun (k : κ) ω (b : Bool) => draw (w ⟨k, b⟩) ω) P := by
    rw [iIndepFun_iff_map_fun_eq_infinitePi_map (by fun_prop)]
    have e : (fun ω (k : κ) (b : Bool) => draw (w ⟨k, b⟩) ω) = (MeasurableEquiv.piCurry fun (_ : κ) (_ : Bool) => S) ∘ fun ω p => draw (w p) ω := by
      ext; simp [Sigma.curry]
    have h1 := (iIndepFun_iff_map_fun_eq_infinitePi_map fun p => hm (w p)).1 hX
    rw [e, ← Measure.map_map (by fun_prop) (by fun_prop), h1, Measure.infinitePi_map_piCurry fun (k : κ) (b : Bool) => P.map (draw (w ⟨k, b⟩))]
    congrm Measure.infinitePi fun k => ?_
    have h2 : iIndepFun (fun b : Bool => draw (w ⟨k, b⟩)) P := hi.precomp (g := fun b => w ⟨k, b⟩) fun a b h => by
      have := hw h
      simpa using this
    exact ((iIndepFun_iff_map_fun_eq_infinitePi_map fun b => hm (w ⟨k, b⟩)).1 h2).symm
  exact key.comp (fun _ (f : Bool → S) => F (f true, f false)) fun k => by fun_prop

theorem pairs_subG {n a b : ℕ} (hab : a ≤ b) {draw : Fin n → Ω → S} (hm : ∀ i, Measurable (draw i)) (hi : iIndepFun draw P) {u : Fin a → Fin n}
    {v : Fin b → Fin n} (hu : Function.Injective u) (hv : Function.Injective v) (huv : ∀ i j, u i ≠ v j) {F : S × S → ℝ} (hF : Measurable F) {lo hi' θ : ℝ}
    (hr : ∀ p, lo ≤ F p ∧ F p ≤ hi') (hθ : ∀ i j, ∫ ω, F (draw (u i) ω, draw (v j) ω) ∂P = θ) :
    HasSubgaussianMGF (fun ω => ∑ i, ∑ j, (F (draw (u i) ω, draw (v j) ω) - θ)) ((b : ℝ≥0) ^ 2 * (a * (‖hi' - lo‖₊ / 2) ^ 2)) P := by
  rcases Nat.eq_zero_or_pos b with rfl | hb
  · obtain rfl : a = 0 := by omega
    simp
  have : NeZero b := ⟨hb.ne'⟩
  have hc : ∀ k : Fin b, Function.Injective fun i : Fin a => v (Fin.castLE hab i + k) := fun k i j h =>
    Fin.castLE_injective hab (add_right_cancel (hv h))
  have h1 : ∀ k : Fin b, HasSubgaussianMGF (fun ω => ∑ i : Fin a, (F (draw (u i) ω, draw (v (Fin.castLE hab i + k)) ω) - θ))
      (a * (‖hi' - lo‖₊ / 2) ^ 2) P := by
    intro k
    have hind := indep_pairs hm hi hu (hc k) (fun i j => huv i _) (F := fun p => F p - θ) (hF.sub_const θ)
    have := HasSubgaussianMGF.sum_of_iIndepFun hind (c := fun _ => (‖hi' - lo‖₊ / 2) ^ 2) (s := Finset.univ) (fun i _ => by
      have := hasSubgaussianMGF_of_mem_Icc (μ := P) (X := fun ω => F (draw (u i) ω, draw (v (Fin.castLE hab i + k)) ω)) (a := lo) (b := hi')
        (hF.comp ((hm _).prodMk (hm _))).aemeasurable (.of_forall fun ω => hr _)
      rw [hθ] at this
      exact this)
    simpa using this
  have h2 := subG_sum Finset.univ fun k _ => h1 k
  rw [Finset.card_fin] at h2
  convert h2 using 1
  funext ω
  rw [Finset.sum_comm (s := (Finset.univ : Finset (Fin b)))]
  refine Finset.sum_congr rfl fun i _ => ?_
  exact (Equiv.sum_comp (Equiv.addLeft (Fin.castLE hab i)) fun j => F (draw (u i) ω, draw (v j) ω) - θ).symm

/-- Hoeffding's bound for both tails of the average over all pairs. -/
theorem pairs_tail {n a b : ℕ} (ha : 0 < a) (hb : 0 < b) {draw : Fin n → Ω → S} (hm : ∀ i, Measurable (draw i)) (hi : iIndepFun draw P)
    {u : Fin a → Fin n} {v : Fin b → Fin n} (hu : Function.Injective u) (hv : Function.Injective v) (huv : ∀ i j, u i ≠ v j) {F : S × S → ℝ}
    (hF : Measurable F) {lo hi' θ : ℝ} (hlt : lo < hi') (hr : ∀ p, lo ≤ F p ∧ F p ≤ hi')
    (hθ : ∀ i j, ∫ ω, F (draw (u i) ω, draw (v j) ω) ∂P = θ) {ε : ℝ} (hε : 0 ≤ ε) :
    P.real {ω | ε ≤ (∑ i, ∑ j, F (draw (u i) ω, draw (v j) ω)) / (a * b) - θ} ≤ Real.exp (-(2 * (min a b : ℕ) * (ε / (hi' - lo)) ^ 2)) ∧
    P.real {ω | ε ≤ θ - (∑ i, ∑ j, F (draw (u i) ω, draw (v j) ω)) / (a * b)} ≤ Real.exp (-(2 * (min a b : ℕ) * (ε / (hi' - lo)) ^ 2)) := by
  have ha' : (0 : ℝ) < a := by exact_mod_cast ha
  have hb' : (0 : ℝ) < b := by exact_mod_cast hb
  have hw : 0 < hi' - lo := by linarith
  have sub : HasSubgaussianMGF (fun ω => ∑ i, ∑ j, (F (draw (u i) ω, draw (v j) ω) - θ))
      ((max a b : ℕ) ^ 2 * ((min a b : ℕ) * (‖hi' - lo‖₊ / 2) ^ 2)) P := by
    rcases le_total a b with h | h
    · rw [max_eq_right h, min_eq_left h]
      exact pairs_subG h hm hi hu hv huv hF hr hθ
    · rw [max_eq_left h, min_eq_right h]
      have := pairs_subG h hm hi hv hu (fun i j => (huv j i).symm) (F := fun p => F p.swap) (hF.comp measurable_swap) (fun p => hr _) (fun i j => hθ j i)
      simp only [Prod.swap_prod_mk] at this
      refine this.congr (.of_forall fun ω => ?_)
      exact Finset.sum_comm
  have e : ∀ ω, ∑ i, ∑ j, (F (draw (u i) ω, draw (v j) ω) - θ) = (a * b) * ((∑ i, ∑ j, F (draw (u i) ω, draw (v j) ω)) / (a * b) - θ) := by
    intro ω
    simp only [Finset.sum_sub_distrib, Finset.sum_const, Finset.card_univ, Fintype.card_fin, nsmul_eq_mul]
    field_simp
  have hx : -(a * b * ε) ^ 2 / (2 * (((max a b : ℕ) ^ 2 * ((min a b : ℕ) * (‖hi' - lo‖₊ / 2) ^ 2) : ℝ≥0) : ℝ)) =
      -(2 * (min a b : ℕ) * (ε / (hi' - lo)) ^ 2) := by
    have hmm : (a : ℝ) * b = (max a b : ℕ) * (min a b : ℕ) := by
      rcases le_total a b with h | h
      · rw [max_eq_right h, min_eq_left h, mul_comm]
      · rw [max_eq_left h, min_eq_right h]
    have p1 : (0 : ℝ) < (max a b : ℕ) := by exact_mod_cast lt_max_of_lt_left ha
    have p2 : (0 : ℝ) < (min a b : ℕ) := by exact_mod_cast lt_min ha hb
    rw [hmm]
    push_cast
    rw [Real.norm_of_nonneg hw.le]
    push_cast at p1 p2
    field_simp
  constructor
  · have := sub.measure_ge_le (ε := a * b * ε) (by positivity)
    rw [hx] at this
    simp only [e, mul_le_mul_iff_right₀ (mul_pos ha' hb')] at this
    exact this
  · have := sub.neg.measure_ge_le (ε := a * b * ε) (by positivity)
    rw [hx] at this
    simp only [Pi.neg_apply, e, ← mul_neg ((a : ℝ) * b), mul_le_mul_iff_right₀ (mul_pos ha' hb'), neg_sub] at this
    exact this

end Mlp.Lemmas
