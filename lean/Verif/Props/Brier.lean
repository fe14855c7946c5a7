import Verif.Props.LogLoss

/-! # Property C76: the Brier loss -/

namespace Mlp.Props
open Mlp.Util Mlp.Spec Mlp.Classif Mlp.Lemmas

theorem oneHot_eq {y : LabelVec} {n : Nat} (h : GoodLabels y n) :
    oneHot y n = .ok (y.vals.map fun v => (List.range n).map fun (j : Nat) => decide ((j : Int) = v)) := by
  obtain ⟨m, h1, h2, h3⟩ := C54_one_hot h
  rw [h1]
  congr 1
  apply List.ext_getElem?
  intro i
  rw [List.getElem?_map]
  cases hv : y.vals[i]? with
  | none =>
    rw [List.getElem?_eq_none_iff] at hv
    rw [List.getElem?_eq_none (by omega)]; rfl
  | some v =>
    obtain ⟨row, h4, h5, h6⟩ := h3 i v hv
    rw [h4, Option.map_some]
    congr 1
    apply List.ext_getElem?
    intro j
    by_cases hj : j < n
    · rw [h6 j (by exact_mod_cast hj), List.getElem?_map, List.getElem?_range hj]; rfl
    · rw [List.getElem?_eq_none (by omega), List.getElem?_eq_none (by simp; omega)]

theorem brier_row {r : List (Flt ℝ)} (hr : LogProbs r) (k : Nat) :
    Flt.sum (List.zipWith (fun v (b : Bool) => ((fexp v).sub (boolFlt b)).mul ((fexp v).sub (boolFlt b))) r
      ((List.range r.length).map fun (j : Nat) => decide ((j : Int) = (k : Int)))) = .fin (brierAt (probs r) k) := by
  have e : List.zipWith (fun v (b : Bool) => ((fexp v).sub (boolFlt b)).mul ((fexp v).sub (boolFlt b))) r
      ((List.range r.length).map fun (j : Nat) => decide ((j : Int) = (k : Int))) =
      ((List.range r.length).map fun j => (pr (probs r) j - if j = k then 1 else 0) ^ 2).map Flt.fin := by
    apply List.ext_getElem?
    intro j
    by_cases hj : j < r.length
    · have hp : pr (probs r) j = prob r[j] := by rw [pr_probs, getD_eq _ _ hj]
      rw [List.getElem?_zipWith, List.getElem?_eq_getElem hj, List.getElem?_map, List.getElem?_range hj,
        List.map_map, List.getElem?_map, List.getElem?_range hj]
      simp only [Option.map_some, Function.comp, hp]
      rw [fexp_prob (hr _ (List.getElem_mem hj))]
      by_cases hjk : j = k
      · simp [hjk, boolFlt, sq]
      · simp [hjk, boolFlt, sq]
    · rw [List.getElem?_eq_none (by simp; omega), List.getElem?_eq_none (by simp; omega)]
  rw [e, Flt.sum_fin, brierAt, probs_length]
  congr 1

/-- The factor that makes the loss of the uniform prediction 1. -/
noncomputable def brierScale (rescale : Bool) (n : Nat) : ℝ :=
  if rescale = true ∧ 1 < n then (n : ℝ) / ((n : ℝ) - 1) else 1

theorem brierScale_pos (b : Bool) (n : Nat) : 0 < brierScale b n := by
  unfold brierScale
  split
  · rename_i h
    have : (1 : ℝ) < n := by exact_mod_cast h.2
    have h0 : (0 : ℝ) < (n : ℝ) - 1 := by linarith
    positivity
  · norm_num

/-- **C76, value.**  `brier_loss` is the squared distance of the probabilities from certainty of the true
label, times `n/(n-1)` if rescaling is asked for and there are `n ≥ 2` labels. -/
theorem C76_value {y : LabelVec} {p : Mat ℝ} (h : ClassInput y p) (hp : ∀ r ∈ p.rows, LogProbs r) (rescale : Bool) :
    ∃ L, brierLoss rescale y p = .ok L ∧
      PerSample (fun r k v => v = .fin (brierScale rescale p.ncols * brierAt (probs r) k)) y p L := by
  unfold brierLoss
  have hg : GoodLabels (asInt y) (p.ncols : Int) := ⟨by exact_mod_cast h.labels, rfl, h.range⟩
  rw [validate_ok h, ok_bind]
  simp only []
  rw [oneHot_eq hg, ok_bind]
  have e : List.zipWith (fun (r : List (Flt ℝ)) (b : List Bool) => Flt.sum
      (List.zipWith (fun v (k : Bool) => ((fexp v).sub (boolFlt k)).mul ((fexp v).sub (boolFlt k))) r b))
      p.rows ((asInt y).vals.map fun v => (List.range p.ncols).map fun (j : Nat) => decide ((j : Int) = v)) =
      List.zipWith (fun (r : List (Flt ℝ)) (v : Int) => Flt.sum
        (List.zipWith (fun v (k : Bool) => ((fexp v).sub (boolFlt k)).mul ((fexp v).sub (boolFlt k))) r
          ((List.range p.ncols).map fun (j : Nat) => decide ((j : Int) = v)))) p.rows y.vals := by
    rw [List.zipWith_map_right]; rfl
  rw [e]
  unfold brierScale
  by_cases hs : rescale = true ∧ 1 < p.ncols
  · rw [if_pos (by simpa using hs), if_pos hs]
    refine ⟨_, rfl, ?_⟩
    rw [List.map_zipWith]
    refine perSample_of h _ ?_
    intro r hr k hk
    rw [← h.rows r hr, brier_row (hp r hr)]
    simp
  · rw [if_neg (by simpa using hs), if_neg hs]
    refine ⟨_, rfl, perSample_of h _ ?_⟩
    intro r hr k hk
    rw [← h.rows r hr, brier_row (hp r hr), one_mul]

theorem brierAt_eq (q : List ℝ) {k : Nat} (hk : k < q.length) : brierAt q k = sumSq q - 2 * pr q k + 1 := by
  unfold brierAt sumSq
  have e : ∀ j ∈ Finset.range q.length, (pr q j - if j = k then 1 else 0) ^ 2 =
      pr q j ^ 2 + if j = k then 1 - 2 * pr q k else 0 := by
    intro j _
    split
    · rename_i h; subst h; ring
    · ring
  rw [Finset.sum_congr rfl e, Finset.sum_add_distrib, Finset.sum_ite_eq' , if_pos (Finset.mem_range.2 hk)]
  ring

theorem sumSq_le_one {q : List ℝ} (h : IsProbVec q) : sumSq q ≤ 1 := by
  unfold sumSq
  rw [← h.2, sum_range]
  refine Finset.sum_le_sum fun k _ => ?_
  have h0 := pr_nonneg h.1 k
  have h1 := pr_le_one h k
  nlinarith

theorem pr_mul_le {q : List ℝ} {k : Nat} (hk : k < q.length) : pr q k ^ 2 ≤ sumSq q :=
  Finset.single_le_sum (f := fun j => pr q j ^ 2) (fun _ _ => sq_nonneg _) (Finset.mem_range.2 hk)

theorem brierAt_zero {q : List ℝ} (h : IsProbVec q) {k : Nat} (hk : k < q.length) :
    brierAt q k = 0 ↔ pr q k = 1 := by
  have h1 := sumSq_le_one h
  have h2 := pr_mul_le hk
  have h3 := pr_le_one h k
  have h4 := pr_nonneg h.1 k
  constructor
  · intro h0
    rw [brierAt_eq q hk] at h0
    have : (pr q k - 1) ^ 2 ≤ 0 := by nlinarith
    nlinarith [sq_nonneg (pr q k - 1)]
  · intro h0
    rw [brierAt_eq q hk, h0]
    rw [h0] at h2
    linarith

/-- **C76, range.**  For normalised predictions the loss lies between 0 and 2, or `2n/(n-1)` when rescaled, and
it is 0 exactly for predictions that give the true label probability 1. -/
theorem C76_range {y : LabelVec} {p : Mat ℝ} (h : ClassInput y p) (hp : ∀ r ∈ p.rows, IsDist r) (rescale : Bool) :
    ∃ L, brierLoss rescale y p = .ok L ∧
      PerSample (fun r k v => ∃ x : ℝ, v = .fin x ∧ 0 ≤ x ∧
        x ≤ (if rescale = true ∧ 1 < p.ncols then 2 * (p.ncols : ℝ) / ((p.ncols : ℝ) - 1) else 2) ∧
        (x = 0 ↔ pr (probs r) k = 1)) y p L := by
  obtain ⟨L, hL, hs⟩ := C76_value h (fun r hr => (hp r hr).1) rescale
  refine ⟨L, hL, ⟨hs.1, ?_⟩⟩
  intro i k r hr hk
  obtain ⟨v, h1, rfl⟩ := hs.2 i k r hr hk
  have hmem := List.mem_of_getElem? hr
  have hq := isProbVec_probs (hp r hmem)
  have hk' : k < (probs r).length := by
    rw [probs_length, h.rows r hmem]
    exact_mod_cast (h.range _ (List.mem_of_getElem? hk)).2
  have hc := brierScale_pos rescale p.ncols
  have h0 : 0 ≤ brierAt (probs r) k := Finset.sum_nonneg fun j _ => sq_nonneg _
  have h2 : brierAt (probs r) k ≤ 2 := by
    rw [brierAt_eq _ hk']
    have := sumSq_le_one hq
    have := pr_nonneg hq.1 k
    linarith
  refine ⟨_, h1, _, rfl, mul_nonneg hc.le h0, ?_, ?_⟩
  · have : (if rescale = true ∧ 1 < p.ncols then 2 * (p.ncols : ℝ) / ((p.ncols : ℝ) - 1) else 2) =
        brierScale rescale p.ncols * 2 := by
      unfold brierScale; split <;> ring
    rw [this]
    exact mul_le_mul_of_nonneg_left h2 hc.le
  · rw [mul_eq_zero, or_iff_right hc.ne', brierAt_zero hq hk']

/-- **C76, calibration.**  With two or more labels the rescaled loss of the uniform prediction is 1. -/
theorem C76_uniform {y : LabelVec} {p : Mat ℝ} (h : ClassInput y p) (hn : 2 ≤ p.ncols)
    (hp : ∀ r ∈ p.rows, r = logRow (List.replicate p.ncols (1 / (p.ncols : ℝ)))) :
    ∃ L, brierLoss true y p = .ok L ∧ ∀ v ∈ L, v = .fin 1 := by
  obtain ⟨L, hL, hs⟩ := C76_value h (fun r hr => by rw [hp r hr]; exact logRow_ok _) true
  refine ⟨L, hL, ?_⟩
  intro v hv
  obtain ⟨i, hi, rfl⟩ := List.getElem_of_mem hv
  have hi' : i < p.rows.length := hs.1 ▸ hi
  have hy : i < y.vals.length := h.length ▸ hi'
  obtain ⟨k, hk⟩ := Int.eq_ofNat_of_zero_le (h.range _ (List.getElem_mem hy)).1
  have hkn : k < p.ncols := by
    have := (h.range _ (List.getElem_mem hy)).2
    rw [hk] at this; exact_mod_cast this
  obtain ⟨v, h1, h2⟩ := hs.2 i k p.rows[i] (List.getElem?_eq_getElem hi')
    (by rw [List.getElem?_eq_getElem hy, hk])
  rw [List.getElem?_eq_getElem hi, Option.some.injEq] at h1
  rw [h1, h2, hp _ (List.getElem_mem hi'), probs_logRow]
  · have hlen : (List.replicate p.ncols (1 / (p.ncols : ℝ))).length = p.ncols := List.length_replicate
    have hpr : ∀ j < p.ncols, pr (List.replicate p.ncols (1 / (p.ncols : ℝ))) j = 1 / (p.ncols : ℝ) := by
      intro j hj
      unfold pr
      rw [getD_eq _ _ (by rwa [hlen])]; simp
    rw [brierAt_eq _ (by rwa [hlen]), hpr k hkn]
    unfold sumSq
    rw [hlen, Finset.sum_congr rfl fun j hj => by rw [hpr j (Finset.mem_range.1 hj)]]
    rw [Finset.sum_const, Finset.card_range, nsmul_eq_mul]
    unfold brierScale
    rw [if_pos ⟨rfl, by omega⟩]
    have : (2 : ℝ) ≤ p.ncols := by exact_mod_cast hn
    have h1 : (p.ncols : ℝ) - 1 ≠ 0 := by linarith
    have h2 : (p.ncols : ℝ) ≠ 0 := by linarith
    congr 1
    field_simp
    ring
  · intro v hv
    rw [List.eq_of_mem_replicate hv]
    positivity

theorem brierLoss_every {r : List (Flt ℝ)} (hr : LogProbs r) (hne : r ≠ []) (b : Bool) :
    brierLoss b (everyLabel r.length) (everyRow r) =
      .ok ((List.range r.length).map fun k => .fin (brierScale b r.length * brierAt (probs r) k)) := by
  obtain ⟨L, h1, h2⟩ := C76_value (every_ok hne) (fun s hs => by
    rw [List.eq_of_mem_replicate hs]; exact hr) b
  rw [h1, every_losses (g := fun k => .fin (brierScale b r.length * brierAt (probs r) k)) (perSample_mono h2 ?_)]
  rintro s - k v rfl rfl
  rfl

theorem expected_map {q : List ℝ} {n : Nat} (hn : q.length = n) (g : Nat → ℝ) :
    expected q ((List.range n).map fun k => .fin (g k)) = .fin (∑ k ∈ Finset.range n, pr q k * g k) := by
  subst hn
  exact expected_fin (by simp) g fun k hk _ => getD_range_map _ _ hk

theorem expected_brier {q p : List ℝ} (hq : IsProbVec q) (hl : q.length = p.length) (c : ℝ) :
    ∑ k ∈ Finset.range p.length, pr q k * (c * brierAt p k) =
      c * ((∑ k ∈ Finset.range p.length, (pr p k - pr q k) ^ 2) + 1 - sumSq q) := by
  have h1 : ∑ k ∈ Finset.range p.length, pr q k = 1 := by rw [← hl, ← sum_range, hq.2]
  have e1 : ∀ k ∈ Finset.range p.length, pr q k * (c * brierAt p k) =
      c * (sumSq p + 1) * pr q k - c * (2 * (pr q k * pr p k)) := by
    intro k hk
    rw [brierAt_eq p (Finset.mem_range.1 hk)]; ring
  have e2 : ∀ k ∈ Finset.range p.length, (pr p k - pr q k) ^ 2 =
      pr p k ^ 2 + (pr q k ^ 2 - 2 * (pr q k * pr p k)) := by
    intro k _; ring
  rw [Finset.sum_congr rfl e1, Finset.sum_congr rfl e2, Finset.sum_sub_distrib, Finset.sum_add_distrib,
    Finset.sum_sub_distrib, ← Finset.mul_sum, ← Finset.mul_sum, h1]
  unfold sumSq
  rw [hl]
  ring

/-- **C76, proper.**  If the label has distribution `q`, then the expected Brier loss is least for the
prediction `log q`, and only for it. -/
theorem C76_proper {q : List ℝ} (hq : IsProbVec q) {r : List (Flt ℝ)} (hr : LogProbs r) (hl : q.length = r.length)
    (rescale : Bool) :
    ∃ L Lq a b, brierLoss rescale (everyLabel r.length) (everyRow r) = .ok L ∧
      brierLoss rescale (everyLabel (logRow q).length) (everyRow (logRow q)) = .ok Lq ∧
      expected q L = .fin a ∧ expected q Lq = .fin b ∧ b ≤ a ∧ (a = b → r = logRow q) := by
  have hlq : (logRow q).length = q.length := by simp [logRow]
  have hqne : logRow q ≠ [] := isDist_ne_nil (isDist_logRow hq)
  have hrne : r ≠ [] := by
    rintro rfl
    rw [← List.length_pos_iff, hlq, hl] at hqne
    simp at hqne
  refine ⟨_, _, _, _, brierLoss_every hr hrne rescale, brierLoss_every (logRow_ok q) hqne rescale,
    expected_map hl _, expected_map hlq.symm _, ?_⟩
  rw [probs_logRow hq.1, hlq, ← hl]
  have hc := brierScale_pos rescale q.length
  have e1 := expected_brier hq (p := probs r) (by rw [probs_length, hl]) (brierScale rescale q.length)
  have e2 := expected_brier hq (p := q) rfl (brierScale rescale q.length)
  rw [probs_length, ← hl] at e1
  rw [e1, e2]
  have h0 : ∑ k ∈ Finset.range q.length, (pr q k - pr q k) ^ 2 = 0 :=
    Finset.sum_eq_zero fun k _ => by ring
  have h1 : 0 ≤ ∑ k ∈ Finset.range q.length, (pr (probs r) k - pr q k) ^ 2 :=
    Finset.sum_nonneg fun k _ => sq_nonneg _
  rw [h0]
  constructor
  · exact mul_le_mul_of_nonneg_left (by linarith) hc.le
  · intro h
    have h2 := mul_left_cancel₀ hc.ne' h
    have h3 : ∑ k ∈ Finset.range q.length, (pr (probs r) k - pr q k) ^ 2 = 0 := by linarith
    have h4 := (Finset.sum_eq_zero_iff_of_nonneg fun k _ => sq_nonneg _).1 h3
    have h5 : q = probs r := pr_ext (by rw [probs_length, hl]) fun k hk => by
      have := h4 k (Finset.mem_range.2 hk)
      have := pow_eq_zero_iff (two_ne_zero) |>.1 this
      linarith
    rw [h5, logRow_probs hr]

/-! ### Examples -/

example : ∃ L, brierLoss false ⟨'i', [2, 0]⟩ ⟨3, [[.fin 0, .fin 1, .fin 1], [.ninf, .fin 0, .ninf]]⟩ = .ok L ∧
    L[1]? = some (.fin 2) := by
  obtain ⟨L, h, hs⟩ := C76_value exampleClass exampleClass_ok false
  obtain ⟨v, h1, rfl⟩ := hs.2 1 0 _ rfl rfl
  refine ⟨L, h, ?_⟩
  rw [h1]
  simp [brierScale, brierAt, probs, prob, pr, Finset.sum_range_succ]
  norm_num

example := C76_proper exampleDist (logRow_ok [1, 0]) rfl true

example : ∃ L, brierLoss true ⟨'i', [2, 0]⟩ ⟨3, List.replicate 2 (logRow (List.replicate 3 (1 / ((3 : Nat) : ℝ))))⟩ =
    .ok L ∧ ∀ v ∈ L, v = .fin 1 :=
  C76_uniform ⟨Or.inr rfl, by simp, by simp, rfl, by simp [logRow], by simp⟩ (by norm_num)
    (fun r hr => List.eq_of_mem_replicate hr)

end Mlp.Props
