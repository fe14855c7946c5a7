import Verif.Props.Spherical
import Verif.Props.ClassTable

/-! # Property C80: the classification `JustNoise` -/

namespace Mlp.Props
open Mlp.Util Mlp.Spec Mlp.Classif Mlp.Lemmas Mlp.Frame

/-- The smoothed frequencies of the labels. -/
noncomputable def smoothed (n : Nat) (pseudo : ℝ) (l : List Int) : List ℝ :=
  (List.range n).map fun (k : Nat) => ((l.count (k : Int) : ℝ) + pseudo) / ((l.length : ℝ) + (n : ℝ) * pseudo)

theorem countP_oneHot (l : List Int) {n k : Nat} (hk : k < n) :
    ((l.map fun v => (List.range n).map fun (j : Nat) => decide ((j : Int) = v)).countP fun row => row.getD k false) =
      l.count (k : Int) := by
  rw [List.countP_map]
  unfold List.count
  congr 1
  funext v
  simp only [Function.comp]
  rw [getD_eq _ _ (by simpa using hk)]
  simp only [List.getElem_map, List.getElem_range]
  rw [Bool.eq_iff_iff, decide_eq_true_eq, beq_iff_eq]
  exact eq_comm

theorem sum_count (l : List Int) {n : Nat} (h : ∀ v ∈ l, 0 ≤ v ∧ v < (n : Int)) (f : Nat → ℝ) :
    (l.map fun v => f v.toNat).sum = ∑ k ∈ Finset.range n, (l.count (k : Int) : ℝ) * f k := by
  induction l with
  | nil => simp
  | cons a l ih =>
    rw [List.map_cons, List.sum_cons, ih fun v hv => h v (by simp [hv])]
    obtain ⟨h0, h1⟩ := h a (by simp)
    have : ∀ k ∈ Finset.range n, (((a :: l).count (k : Int) : Nat) : ℝ) * f k =
        (if k = a.toNat then f a.toNat else 0) + (l.count (k : Int) : ℝ) * f k := by
      intro k _
      rw [List.count_cons]
      by_cases hk : k = a.toNat
      · have : a = (k : Int) := by omega
        simp [this]; ring
      · have : a ≠ (k : Int) := by omega
        simp [this, hk]
    rw [Finset.sum_congr rfl this, Finset.sum_add_distrib, Finset.sum_ite_eq', if_pos (Finset.mem_range.2 (by omega))]

theorem smoothed_prob {n : Nat} {pseudo : ℝ} {l : List Int} (h : ∀ v ∈ l, 0 ≤ v ∧ v < (n : Int)) (hp : 0 ≤ pseudo)
    (ht : 0 < (l.length : ℝ) + (n : ℝ) * pseudo) : IsProbVec (smoothed n pseudo l) := by
  constructor
  · intro v hv
    obtain ⟨k, -, rfl⟩ := List.mem_map.1 hv
    positivity
  · unfold smoothed
    have e : ((List.range n).map fun (k : Nat) => ((l.count (k : Int) : ℝ) + pseudo) /
        ((l.length : ℝ) + (n : ℝ) * pseudo)).sum =
        (∑ k ∈ Finset.range n, ((l.count (k : Int) : ℝ) + pseudo)) / ((l.length : ℝ) + (n : ℝ) * pseudo) := by
      rw [Finset.sum_div]; rfl
    rw [e, Finset.sum_add_distrib, Finset.sum_const, Finset.card_range, nsmul_eq_mul]
    have := sum_count l h fun _ => 1
    simp only [mul_one, List.map_const', List.sum_replicate, nsmul_eq_mul] at this
    rw [← this, div_self ht.ne']

/-- **C80, prediction.**  After fitting to labels `0 ≤ y < n` with a pseudo count `c ≥ 0`, the prediction for every
test point is the logarithm of `(count of the label + c) / (number of points + n c)`, which is a distribution. -/
theorem C80_noise {y : LabelVec} {n : Nat} (h : GoodLabels y n) {pseudo : ℝ} (hp : 0 ≤ pseudo)
    (ht : 0 < (y.vals.length : ℝ) + (n : ℝ) * pseudo) (nTest : Nat) :
    ∃ pred, justNoiseFit n pseudo y = .ok pred ∧
      pred = logRow ((List.range n).map fun (k : Nat) =>
        ((y.vals.count (k : Int) : ℝ) + pseudo) / ((y.vals.length : ℝ) + (n : ℝ) * pseudo)) ∧
      IsDist pred ∧ (justNoisePredict pred nTest).ncols = n ∧
      (justNoisePredict pred nTest).rows = List.replicate nTest pred := by
  have hq := smoothed_prob h.2.2 hp ht
  refine ⟨logRow (smoothed n pseudo y.vals), ?_, rfl, isDist_logRow hq, ?_, rfl⟩
  · unfold justNoiseFit
    rw [oneHot_eq h, ok_bind, pure_eq_ok]
    congr 1
    unfold logRow smoothed
    rw [List.map_map, List.map_map]
    refine List.map_congr_left fun k hk => ?_
    simp only [Function.comp]
    rw [countP_oneHot _ (List.mem_range.1 hk), Flt.div_fin ht.ne']
    have h0 : 0 ≤ ((y.vals.count (k : Int) : ℝ) + pseudo) / ((y.vals.length : ℝ) + (n : ℝ) * pseudo) := by positivity
    rw [add_comm pseudo]
    unfold flog
    by_cases hz : ((y.vals.count (k : Int) : ℝ) + pseudo) / ((y.vals.length : ℝ) + (n : ℝ) * pseudo) = 0
    · simp only [hz, lt_irrefl, if_false, if_true]
    · simp only [lt_of_le_of_ne h0 (Ne.symm hz), hz, if_false, if_true]
  · simp [justNoisePredict, logRow, smoothed]

/-- **C80, no data.**  Without data and pseudo counts everything becomes NaN. -/
theorem C80_empty {y : LabelVec} {n : Nat} (h : GoodLabels y n) (he : y.vals = []) :
    justNoiseFit n 0 y = .ok (List.replicate n .nan) := by
  unfold justNoiseFit
  rw [oneHot_eq h, ok_bind, pure_eq_ok]
  congr 1
  rw [he]
  simp only [List.map_nil, List.countP_nil, List.length_nil, Nat.cast_zero, mul_zero, add_zero, List.map_map]
  rw [List.eq_replicate_iff]
  refine ⟨by simp, ?_⟩
  intro v hv
  obtain ⟨k, -, rfl⟩ := List.mem_map.1 hv
  simp [Flt.div, Flt.signInf, flog]

/-- The total log loss of a constant prediction. -/
theorem logLoss_const {y : LabelVec} {n : Nat} (h : GoodLabels y n) (hne : y.vals ≠ []) {r : List (Flt ℝ)} (hr : LogProbs r)
    (hl : r.length = n) :
    ∃ L, logLoss y ⟨n, List.replicate y.vals.length r⟩ = .ok L ∧
      L = y.vals.map fun v => nll (pr (probs r) v.toNat) := by
  have hi : ClassInput y (⟨n, List.replicate y.vals.length r⟩ : Mat ℝ) :=
    ⟨Or.inr h.2.1, by exact_mod_cast h.1, by
      intro e
      rw [List.replicate_eq_nil_iff] at e
      exact hne (List.length_eq_zero_iff.1 e), by simp, fun s hs => by rw [List.eq_of_mem_replicate hs, hl], h.2.2⟩
  obtain ⟨L, h1, h2⟩ := C75_value hi (fun s hs => by rw [List.eq_of_mem_replicate hs]; exact hr)
  refine ⟨L, h1, ?_⟩
  apply List.ext_getElem (by rw [h2.1]; simp)
  intro i hi1 hi2
  have hi3 : i < y.vals.length := by simpa using hi2
  obtain ⟨k, hk⟩ := Int.eq_ofNat_of_zero_le (h.2.2 _ (List.getElem_mem hi3)).1
  obtain ⟨v, g1, g2⟩ := h2.2 i k r (by simp [hi3]) (by
    rw [List.getElem?_eq_getElem hi3, hk])
  rw [List.getElem?_eq_getElem hi1, Option.some.injEq] at g1
  rw [g1, g2, List.getElem_map, hk]; rfl

/-- **C80, optimality.**  Without pseudo counts no constant prediction has a smaller total log loss on the training
labels, and every other distribution has a larger one. -/
theorem C80_optimal {y : LabelVec} {n : Nat} (h : GoodLabels y n) (hne : y.vals ≠ []) {r : List (Flt ℝ)} (hr : IsDist r)
    (hl : r.length = n) :
    ∃ pred L L0, justNoiseFit n 0 y = .ok pred ∧
      logLoss y ⟨n, List.replicate y.vals.length r⟩ = .ok L ∧
      logLoss y (justNoisePredict pred y.vals.length) = .ok L0 ∧
      Flt.sum L0 ≤ Flt.sum L ∧ (Flt.sum L0 = Flt.sum L → r = pred) := by
  have hlen : (0 : ℝ) < y.vals.length := by exact_mod_cast List.length_pos_iff.2 hne
  obtain ⟨pred, g1, g2, g3, g4, -⟩ := C80_noise h le_rfl (by simpa using hlen) 0
  obtain ⟨L, h1, rfl⟩ := logLoss_const h hne hr.1 hl
  have hpl : pred.length = n := by rw [g2]; simp [logRow]
  obtain ⟨L0, h2, rfl⟩ := logLoss_const h hne g3.1 hpl
  refine ⟨pred, _, y.vals.map fun v => nll (pr (probs pred) v.toNat), g1, h1, ?_, ?_⟩
  · unfold justNoisePredict; rw [hpl]; exact h2
  have hq := smoothed_prob (pseudo := 0) h.2.2 le_rfl (by simpa using hlen)
  have hpq : probs pred = smoothed n 0 y.vals := by rw [g2]; exact probs_logRow hq.1
  have hql : (smoothed n 0 y.vals).length = n := by simp [smoothed]
  have hpr : ∀ k < n, pr (smoothed n 0 y.vals) k = (y.vals.count (k : Int) : ℝ) / y.vals.length := by
    intro k hk
    unfold pr
    rw [getD_eq _ _ (by rw [hql]; exact hk)]
    simp [smoothed]
  -- finite totals
  have hfin : ∀ s : List ℝ, (∀ v ∈ y.vals, pr s v.toNat ≠ 0) →
      Flt.sum (y.vals.map fun v => nll (pr s v.toNat)) =
        .fin (y.vals.length * ∑ k ∈ Finset.range n, pr (smoothed n 0 y.vals) k * -Real.log (pr s k)) := by
    intro s hs
    have e : (y.vals.map fun v => nll (pr s v.toNat)) = (y.vals.map fun v => -Real.log (pr s v.toNat)).map Flt.fin := by
      rw [List.map_map]
      refine List.map_congr_left fun v hv => ?_
      unfold nll
      rw [if_neg (hs v hv)]; rfl
    rw [e, Flt.sum_fin, sum_count _ h.2.2 fun k => -Real.log (pr s k), Finset.mul_sum]
    congr 1
    refine Finset.sum_congr rfl fun k hk => ?_
    rw [hpr k (Finset.mem_range.1 hk)]
    field_simp
  have hpos : ∀ v ∈ y.vals, pr (smoothed n 0 y.vals) v.toNat ≠ 0 := by
    intro v hv
    obtain ⟨v0, v1⟩ := h.2.2 v hv
    rw [hpr _ (by omega)]
    have e : ((v.toNat : Nat) : Int) = v := by omega
    rw [e]
    have : 0 < y.vals.count v := List.count_pos_iff.2 hv
    have : (0 : ℝ) < y.vals.count v := by exact_mod_cast this
    positivity
  rw [hpq, hfin _ hpos]
  by_cases h0 : ∀ v ∈ y.vals, pr (probs r) v.toNat ≠ 0
  · rw [hfin _ h0]
    obtain ⟨b1, b2⟩ := gibbs hq (isProbVec_probs hr) (by rw [probs_length, hql, hl]) (by
      intro k hk hk0
      rw [hql] at hk
      rw [hpr k hk] at hk0
      have : y.vals.count (k : Int) ≠ 0 := by
        intro e; rw [e] at hk0; simp at hk0
      have := h0 _ (List.count_pos_iff.1 (Nat.pos_of_ne_zero this))
      simpa using this)
    rw [hql] at b1 b2
    refine ⟨Flt.fin_le_fin.2 (mul_le_mul_of_nonneg_left b1 hlen.le), ?_⟩
    intro e
    rw [Flt.fin.injEq] at e
    have := b2 (mul_left_cancel₀ hlen.ne' e)
    rw [g2]
    change r = logRow (smoothed n 0 y.vals)
    rw [this, logRow_probs hr.1]
  · push Not at h0
    obtain ⟨v, hv, hz⟩ := h0
    have : Flt.sum (y.vals.map fun v => nll (pr (probs r) v.toNat)) = .pinf := by
      apply sum_of_pinf
      · exact List.mem_map.2 ⟨v, hv, by unfold nll; rw [if_pos hz]⟩
      · intro w hw
        obtain ⟨u, -, rfl⟩ := List.mem_map.1 hw
        unfold nll
        split <;> simp
    rw [this]
    exact ⟨Flt.fin_le_pinf _, fun e => by cases e⟩

/-- **C80, Boolean labels.**  Fitting to Boolean labels, or to labels that are out of range, raises
AssertionError. -/
theorem C80_reject {y : LabelVec} {n : Nat} (h : ¬ GoodLabels y n) (pseudo : ℝ) :
    justNoiseFit n pseudo y = .error .assertion := by
  unfold justNoiseFit
  rw [C54_reject h]; rfl

/-! ### Examples -/

theorem exampleLabels : GoodLabels ⟨'i', [2, 0, 2]⟩ (3 : Nat) := ⟨by norm_num, rfl, by simp⟩

example : ∃ pred, justNoiseFit 3 (1 / 2) ⟨'i', [2, 0, 2]⟩ = .ok pred ∧
    pred = [.fin (Real.log (1 / 3)), .fin (Real.log (1 / 9)), .fin (Real.log (5 / 9))] := by
  obtain ⟨pred, h1, h2, -⟩ := C80_noise exampleLabels (pseudo := 1 / 2) (by norm_num) (by norm_num) 0
  refine ⟨pred, h1, ?_⟩
  rw [h2]
  simp [logRow, List.range_succ, List.count_cons]
  norm_num
  constructor <;> rw [one_div, Real.log_inv]

example := C80_optimal exampleLabels (by simp) (isDist_logRow (q := [1 / 2, 0, 1 / 2]) ⟨by norm_num, by norm_num⟩) rfl

example : justNoiseFit 2 0 ⟨'b', [0, 1]⟩ = .error .assertion := C80_reject (by rintro ⟨-, h, -⟩; revert h; decide) 0

end Mlp.Props
