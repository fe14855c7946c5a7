import Verif.Props.Brier

/-! # Property C77: the spherical loss -/

namespace Mlp.Props
open Mlp.Util Mlp.Spec Mlp.Classif Mlp.Lemmas

theorem two_ninf : (Flt.fin (2 : ℝ)).mul .ninf = .ninf := by
  simp only [Flt.mul, Flt.signInf]
  rw [if_neg (by norm_num), if_pos (by norm_num)]

theorem prob_double {v : Flt ℝ} (h : v ≠ .nan ∧ v ≠ .pinf) : prob ((Flt.fin 2).mul v) = prob v ^ 2 := by
  cases v with
  | fin x => simp only [Flt.mul_fin, prob, sq, ← Real.exp_add]; congr 1; ring
  | ninf => rw [two_ninf]; simp [prob]
  | pinf => simp at h
  | nan => simp at h

theorem proper_double {r : List (Flt ℝ)} (h : Proper r) : Proper (r.map fun v => (Flt.fin 2).mul v) := by
  constructor
  · intro v hv
    obtain ⟨w, hw, rfl⟩ := List.mem_map.1 hv
    have := h.1 w hw
    cases w with
    | fin x => simp
    | ninf => simp only [two_ninf]; simp
    | pinf => simp at this
    | nan => simp at this
  · obtain ⟨x, hx⟩ := h.2
    exact ⟨2 * x, List.mem_map.2 ⟨_, hx, by simp⟩⟩

theorem sumSq_probs {r : List (Flt ℝ)} (h : LogProbs r) :
    ((r.map fun v => (Flt.fin 2).mul v).map prob).sum = sumSq (probs r) := by
  rw [List.map_map, List.map_congr_left (f := prob ∘ _) (g := fun v => prob v ^ 2) fun v hv => prob_double (h v hv),
    sum_map_range r .nan]
  unfold sumSq
  rw [probs_length]
  exact Finset.sum_congr rfl fun k _ => by rw [pr_probs]

theorem sumSq_pos {r : List (Flt ℝ)} (h : Proper r) : 0 < sumSq (probs r) := by
  rw [← sumSq_probs h.1]; exact proper_sum_pos (proper_double h)

theorem norm2_pos {r : List (Flt ℝ)} (h : Proper r) : 0 < norm2 (probs r) := Real.sqrt_pos.2 (sumSq_pos h)

/-- The value before rescaling. -/
theorem spherical_entry {r : List (Flt ℝ)} (h : Proper r) {k : Nat} (hk : k < r.length) :
    (fexp (Flt.sub (r.getD k .nan) ((Flt.fin (1 / 2)).mul (logsumexp (r.map fun v => (Flt.fin 2).mul v))))).neg =
      .fin (-(pr (probs r) k / norm2 (probs r))) := by
  rw [logsumexp_proper (proper_double h), sumSq_probs h.1, Flt.mul_fin, pr_probs]
  have hS := sumSq_pos h
  have hn : Real.exp (1 / 2 * Real.log (sumSq (probs r))) = norm2 (probs r) := by
    unfold norm2
    rw [Real.sqrt_eq_rpow, Real.rpow_def_of_pos hS, mul_comm]
  have hm := h.1 _ (getD_mem (r := r) hk)
  cases hv : r.getD k .nan with
  | fin x =>
    simp only [Flt.sub_fin, fexp, prob, Flt.neg]
    rw [Real.exp_sub, hn]
  | ninf => simp [Flt.sub, Flt.add, Flt.neg, fexp, prob]
  | pinf => exact absurd hv hm.2
  | nan => exact absurd hv hm.1

/-- The scale that makes the loss of the uniform prediction 1. -/
noncomputable def sphereScale (n : Nat) : ℝ := if 1 < n then 1 - 1 / Real.sqrt (n : ℝ) else 1

theorem sphereScale_pos (n : Nat) : 0 < sphereScale n := by
  unfold sphereScale
  split
  · rename_i h
    have h1 : (1 : ℝ) < n := by exact_mod_cast h
    have h2 : 1 < Real.sqrt (n : ℝ) := by rw [Real.lt_sqrt (by norm_num)]; simpa using h1
    have h3 : 1 / Real.sqrt (n : ℝ) < 1 := by rw [div_lt_one (by linarith)]; exact h2
    linarith
  · norm_num

/-- The loss of a row as a number. -/
noncomputable def sphereAt (rescale : Bool) (n : Nat) (q : List ℝ) (k : Nat) : ℝ :=
  if rescale then (1 - pr q k / norm2 q) / sphereScale n else -(pr q k / norm2 q)

theorem spherical_eq {y : LabelVec} {p : Mat ℝ} (h : ClassInput y p) (hp : ∀ r ∈ p.rows, Proper r) (rescale : Bool) :
    sphericalLoss rescale y p = .ok (List.zipWith (fun (r : List (Flt ℝ)) (k : Int) =>
      .fin (sphereAt rescale p.ncols (probs r) k.toNat)) p.rows y.vals) := by
  unfold sphericalLoss
  rw [validate_ok h, ok_bind]
  simp only []
  rw [pick_ok h, ok_bind]
  have e : List.zipWith (fun a b => (fexp (Flt.sub a b)).neg)
      (List.zipWith (fun (r : List (Flt ℝ)) (k : Int) => r.getD k.toNat .nan) p.rows y.vals)
      (p.rows.map fun r => (Flt.fin (1 / 2)).mul (logsumexp (r.map fun v => (Flt.fin 2).mul v))) =
      List.zipWith (fun (r : List (Flt ℝ)) (k : Int) => .fin (-(pr (probs r) k.toNat / norm2 (probs r))))
        p.rows y.vals := by
    apply List.ext_getElem?
    intro i
    rw [List.getElem?_zipWith, List.getElem?_zipWith, List.getElem?_zipWith, List.getElem?_map]
    cases hr : p.rows[i]? with
    | none => rfl
    | some r =>
      cases hk : y.vals[i]? with
      | none => rfl
      | some k =>
        have hmem := List.mem_of_getElem? hr
        obtain ⟨h0, h1⟩ := h.range _ (List.mem_of_getElem? hk)
        simp only [Option.map_some]
        rw [spherical_entry (hp r hmem)]
        rw [h.rows r hmem]
        omega
  rw [e]
  unfold sphereAt sphereScale
  cases rescale
  · simp only [Bool.false_eq_true, if_false]; rfl
  · simp only [if_true]
    have hc := (sphereScale_pos p.ncols).ne'
    unfold sphereScale at hc
    rw [List.map_zipWith]
    have : ∀ x : ℝ, ((Flt.fin 1).add (.fin (-x))).div (.fin (if 1 < p.ncols then 1 - 1 / Real.sqrt (p.ncols : ℝ) else 1)) =
        .fin ((1 - x) / (if 1 < p.ncols then 1 - 1 / Real.sqrt (p.ncols : ℝ) else 1)) := by
      intro x
      rw [Flt.add_fin, Flt.div_fin hc, ← sub_eq_add_neg]
    simp only [this]
    rfl

/-- **C77, value.**  `spherical_loss` is minus the probability of the true label over the Euclidean norm of the
probabilities; rescaled it is 1 minus that, over `1 - 1/√n` for `n ≥ 2` labels.  The predictions need not be
normalised. -/
theorem C77_value {y : LabelVec} {p : Mat ℝ} (h : ClassInput y p) (hp : ∀ r ∈ p.rows, Proper r) :
    (∃ L, sphericalLoss false y p = .ok L ∧
      PerSample (fun r k v => v = .fin (-(pr (probs r) k / norm2 (probs r)))) y p L) ∧
    ∃ L, sphericalLoss true y p = .ok L ∧
      PerSample (fun r k v => v = .fin ((1 - pr (probs r) k / norm2 (probs r)) /
        if 1 < p.ncols then 1 - 1 / Real.sqrt (p.ncols : ℝ) else 1)) y p L := by
  refine ⟨⟨_, spherical_eq h hp false, perSample_of h _ ?_⟩, ⟨_, spherical_eq h hp true, perSample_of h _ ?_⟩⟩
  · intro r hr k hk
    simp [sphereAt]
  · intro r hr k hk
    simp [sphereAt, sphereScale]

theorem probs_shift {r : List (Flt ℝ)} (h : LogProbs r) (c : ℝ) :
    probs (shiftRow c r) = (probs r).map fun x => x * Real.exp (-c) := by
  unfold probs shiftRow
  rw [List.map_map, List.map_map]
  exact List.map_congr_left fun v hv => prob_shift (h v hv) c

theorem pr_map_mul (q : List ℝ) (a : ℝ) (k : Nat) : pr (q.map fun x => x * a) k = pr q k * a := by
  unfold pr
  rw [List.getD_eq_getElem?_getD, List.getD_eq_getElem?_getD, List.getElem?_map]
  cases q[k]? <;> simp

theorem norm2_map_mul (q : List ℝ) {a : ℝ} (ha : 0 ≤ a) : norm2 (q.map fun x => x * a) = norm2 q * a := by
  unfold norm2 sumSq
  rw [List.length_map, Finset.sum_congr rfl fun k _ => by rw [pr_map_mul, mul_pow], ← Finset.sum_mul,
    Real.sqrt_mul (Finset.sum_nonneg fun k _ => sq_nonneg _), Real.sqrt_sq ha]

/-- **C77, shift.**  Adding a constant to a row, that is multiplying its probabilities by a constant, does not
change the spherical loss. -/
theorem C77_shift {y : LabelVec} {p p' : Mat ℝ} (h : ClassInput y p) (hp : ∀ r ∈ p.rows, Proper r)
    (hn : p'.ncols = p.ncols)
    (hs : List.Forall₂ (fun r r' => ∃ c : ℝ, r' = shiftRow c r) p.rows p'.rows) (rescale : Bool) :
    sphericalLoss rescale y p' = sphericalLoss rescale y p := by
  have hp' : ∀ r' ∈ p'.rows, Proper r' ∧ r'.length = p.ncols := by
    intro r' hr'
    obtain ⟨i, hi, rfl⟩ := List.getElem_of_mem hr'
    have hi' : i < p.rows.length := by rw [hs.length_eq]; exact hi
    obtain ⟨c, hc⟩ := (List.forall₂_iff_get.1 hs).2 i hi' hi
    simp only [List.get_eq_getElem] at hc
    rw [hc]
    exact ⟨proper_shift (hp _ (List.getElem_mem hi')) c, by
      unfold shiftRow; rw [List.length_map]; exact h.rows _ (List.getElem_mem hi')⟩
  have h' : ClassInput y p' := by
    refine ⟨h.kind, hn ▸ h.labels, ?_, hs.length_eq ▸ h.length, fun r hr => hn ▸ (hp' r hr).2, hn ▸ h.range⟩
    intro h0
    apply h.nonempty
    rw [← List.length_eq_zero_iff, hs.length_eq, h0]; rfl
  rw [spherical_eq h hp, spherical_eq h' fun r hr => (hp' r hr).1]
  congr 1
  apply List.ext_getElem?
  intro i
  rw [List.getElem?_zipWith, List.getElem?_zipWith]
  by_cases hi : i < p.rows.length
  · have hi' : i < p'.rows.length := by rw [← hs.length_eq]; exact hi
    obtain ⟨c, hc⟩ := (List.forall₂_iff_get.1 hs).2 i hi hi'
    simp only [List.get_eq_getElem] at hc
    rw [List.getElem?_eq_getElem hi, List.getElem?_eq_getElem hi', hc]
    cases y.vals[i]? with
    | none => rfl
    | some k =>
      simp only []
      congr 2
      have hr := hp _ (List.getElem_mem hi)
      unfold sphereAt
      rw [probs_shift hr.1, pr_map_mul, norm2_map_mul _ (Real.exp_pos _).le,
        mul_div_mul_right _ _ (Real.exp_pos _).ne', hn]
  · rw [List.getElem?_eq_none (l := p.rows) (by omega), List.getElem?_eq_none (l := p'.rows) (by
      rw [← hs.length_eq]; omega)]

theorem ratio_bounds {r : List (Flt ℝ)} (h : Proper r) {k : Nat} (hk : k < r.length) :
    0 ≤ pr (probs r) k / norm2 (probs r) ∧ pr (probs r) k / norm2 (probs r) ≤ 1 := by
  have hn := norm2_pos h
  have h0 := pr_nonneg (probs_nonneg r) k
  refine ⟨div_nonneg h0 hn.le, ?_⟩
  rw [div_le_one hn]
  unfold norm2
  rw [Real.le_sqrt h0 (sumSq_pos h).le]
  exact pr_mul_le (by rw [probs_length]; exact hk)

/-- A ratio of 1 means that no other label has positive probability. -/
theorem ratio_one {r : List (Flt ℝ)} (h : Proper r) {k : Nat} (hk : k < r.length) :
    pr (probs r) k / norm2 (probs r) = 1 ↔ ∀ j < r.length, j ≠ k → pr (probs r) j = 0 := by
  have hn := norm2_pos h
  have h0 := pr_nonneg (probs_nonneg r) k
  rw [div_eq_one_iff_eq hn.ne']
  have hk' : k ∈ Finset.range (probs r).length := Finset.mem_range.2 (by rw [probs_length]; exact hk)
  have hsum : sumSq (probs r) = pr (probs r) k ^ 2 +
      ∑ j ∈ (Finset.range (probs r).length).erase k, pr (probs r) j ^ 2 :=
    (Finset.add_sum_erase _ (fun j => pr (probs r) j ^ 2) hk').symm
  have hnn : 0 ≤ ∑ j ∈ (Finset.range (probs r).length).erase k, pr (probs r) j ^ 2 :=
    Finset.sum_nonneg fun j _ => sq_nonneg _
  have hsq : norm2 (probs r) ^ 2 = sumSq (probs r) := Real.sq_sqrt (sumSq_pos h).le
  constructor
  · intro he j hj hjk
    rw [← he] at hsq
    have hz : ∑ j ∈ (Finset.range (probs r).length).erase k, pr (probs r) j ^ 2 = 0 := by linarith
    have := (Finset.sum_eq_zero_iff_of_nonneg fun j _ => sq_nonneg _).1 hz j
      (Finset.mem_erase.2 ⟨hjk, Finset.mem_range.2 (by rw [probs_length]; exact hj)⟩)
    exact pow_eq_zero_iff (two_ne_zero) |>.1 this
  · intro hz
    have h1 : ∑ j ∈ (Finset.range (probs r).length).erase k, pr (probs r) j ^ 2 = 0 := by
      refine Finset.sum_eq_zero fun j hj => ?_
      obtain ⟨h1, h2⟩ := Finset.mem_erase.1 hj
      rw [hz j (by rw [← probs_length]; exact Finset.mem_range.1 h2) h1]; ring
    rw [h1, add_zero] at hsum
    unfold norm2
    rw [hsum, Real.sqrt_sq h0]

/-- **C77, range.**  The rescaled loss lies between 0 and `1/(1 - 1/√n)` (1 for a single label), and it is 0
exactly when all other labels have probability 0; the loss that is not rescaled lies between -1 and 0. -/
theorem C77_range {y : LabelVec} {p : Mat ℝ} (h : ClassInput y p) (hp : ∀ r ∈ p.rows, Proper r) :
    (∃ L, sphericalLoss true y p = .ok L ∧
      PerSample (fun r k v => ∃ x : ℝ, v = .fin x ∧ 0 ≤ x ∧
        x ≤ (if 1 < p.ncols then 1 / (1 - 1 / Real.sqrt (p.ncols : ℝ)) else 1) ∧
        (x = 0 ↔ ∀ j < p.ncols, j ≠ k → pr (probs r) j = 0)) y p L) ∧
    ∃ L, sphericalLoss false y p = .ok L ∧
      PerSample (fun _ _ v => ∃ x : ℝ, v = .fin x ∧ -1 ≤ x ∧ x ≤ 0) y p L := by
  refine ⟨⟨_, spherical_eq h hp true, perSample_of h _ ?_⟩, ⟨_, spherical_eq h hp false, perSample_of h _ ?_⟩⟩
  · intro r hr k hk
    have hk' : k < r.length := by rw [h.rows r hr]; exact hk
    obtain ⟨b0, b1⟩ := ratio_bounds (hp r hr) hk'
    have hc := sphereScale_pos p.ncols
    refine ⟨_, rfl, ?_, ?_, ?_⟩
    all_goals simp only [sphereAt, if_true, Int.toNat_natCast]
    · exact div_nonneg (by linarith) hc.le
    · have : (if 1 < p.ncols then 1 / (1 - 1 / Real.sqrt (p.ncols : ℝ)) else 1) = 1 / sphereScale p.ncols := by
        unfold sphereScale; split <;> simp
      rw [this]
      exact (div_le_div_iff_of_pos_right hc).2 (by linarith)
    · rw [div_eq_zero_iff, or_iff_left hc.ne', sub_eq_zero, eq_comm, ratio_one (hp r hr) hk', h.rows r hr]
  · intro r hr k hk
    have hk' : k < r.length := by rw [h.rows r hr]; exact hk
    obtain ⟨b0, b1⟩ := ratio_bounds (hp r hr) hk'
    refine ⟨_, rfl, ?_, ?_⟩
    all_goals simp only [sphereAt, Bool.false_eq_true, if_false, Int.toNat_natCast]
    all_goals linarith

theorem norm2_replicate {n : Nat} {a : ℝ} (ha : 0 ≤ a) :
    norm2 (List.replicate n a) = Real.sqrt n * a := by
  unfold norm2 sumSq
  have hpr : ∀ j ∈ Finset.range (List.replicate n a).length, pr (List.replicate n a) j ^ 2 = a ^ 2 := by
    intro j hj
    unfold pr
    rw [getD_eq _ _ (Finset.mem_range.1 hj)]; simp
  rw [Finset.sum_congr rfl hpr, Finset.sum_const, Finset.card_range, nsmul_eq_mul, List.length_replicate,
    Real.sqrt_mul (by positivity), Real.sqrt_sq ha]

/-- **C77, calibration.**  With two or more labels the rescaled loss of the uniform prediction is 1, whatever
its normalisation. -/
theorem C77_uniform {y : LabelVec} {p : Mat ℝ} (h : ClassInput y p) (hn : 2 ≤ p.ncols)
    (hp : ∀ r ∈ p.rows, ∃ a : ℝ, r = List.replicate p.ncols (.fin a)) :
    ∃ L, sphericalLoss true y p = .ok L ∧ ∀ v ∈ L, v = .fin 1 := by
  have hpr : ∀ r ∈ p.rows, Proper r := by
    intro r hr
    obtain ⟨a, rfl⟩ := hp r hr
    refine ⟨fun v hv => by rw [List.eq_of_mem_replicate hv]; simp, a, List.mem_replicate.2 ⟨by omega, rfl⟩⟩
  refine ⟨_, spherical_eq h hpr true, ?_⟩
  intro v hv
  rw [← List.map_uncurry_zip_eq_zipWith] at hv
  obtain ⟨⟨r, k⟩, hm, rfl⟩ := List.mem_map.1 hv
  obtain ⟨h1, h2⟩ := List.of_mem_zip hm
  obtain ⟨a, rfl⟩ := hp r h1
  obtain ⟨g0, g1⟩ := h.range k h2
  simp only [Function.uncurry, sphereAt, if_true]
  have e : probs (List.replicate p.ncols (.fin a)) = List.replicate p.ncols (Real.exp a) := by
    unfold probs; rw [List.map_replicate]; rfl
  have e2 : pr (List.replicate p.ncols (Real.exp a)) k.toNat = Real.exp a := by
    unfold pr
    rw [getD_eq _ _ (by rw [List.length_replicate]; omega)]; simp
  rw [e, norm2_replicate (Real.exp_pos a).le, e2]
  have hs := sphereScale_pos p.ncols
  have hn' : (0 : ℝ) < p.ncols := by exact_mod_cast (by omega : 0 < p.ncols)
  have hq : 0 < Real.sqrt (p.ncols : ℝ) := Real.sqrt_pos.2 hn'
  have : Real.exp a / (Real.sqrt (p.ncols : ℝ) * Real.exp a) = 1 / Real.sqrt (p.ncols : ℝ) := by
    have := (Real.exp_pos a).ne'
    field_simp
  rw [this]
  congr 1
  rw [div_eq_one_iff_eq hs.ne']
  unfold sphereScale
  rw [if_pos (by omega)]

theorem spherical_every {r : List (Flt ℝ)} (hr : Proper r) (b : Bool) :
    sphericalLoss b (everyLabel r.length) (everyRow r) =
      .ok ((List.range r.length).map fun k => .fin (sphereAt b r.length (probs r) k)) := by
  have hne : r ≠ [] := by
    rintro rfl
    obtain ⟨x, hx⟩ := hr.2
    simp at hx
  have hrows : ∀ s ∈ (everyRow r).rows, Proper s := fun s hs => by
    rw [List.eq_of_mem_replicate hs]; exact hr
  rw [spherical_eq (every_ok hne) hrows]
  rw [every_losses (r := r) (g := fun k => .fin (sphereAt b r.length (probs r) k))
    (perSample_of (every_ok hne) _ ?_)]
  rintro s - k - rfl
  simp [everyRow]

/-- Cauchy and Schwarz, with the case of equality for distributions. -/
theorem cauchy {q p : List ℝ} (hq : IsProbVec q) (hl : q.length = p.length)
    (hpp : 0 < sumSq p) :
    ∑ k ∈ Finset.range q.length, pr q k * (pr p k / norm2 p) ≤ ∑ k ∈ Finset.range q.length, pr q k * (pr q k / norm2 q) ∧
    (∑ k ∈ Finset.range q.length, pr q k * (pr p k / norm2 p) =
      ∑ k ∈ Finset.range q.length, pr q k * (pr q k / norm2 q) → ∃ c : ℝ, 0 < c ∧ p = q.map fun x => x * c) := by
  have hqp : 0 < sumSq q := by
    have hnn : 0 ≤ sumSq q := Finset.sum_nonneg fun k _ => sq_nonneg _
    rcases hnn.lt_or_eq with h | h
    · exact h
    · have := (Finset.sum_eq_zero_iff_of_nonneg fun k _ => sq_nonneg (pr q k)).1 h.symm
      have h1 : q.sum = 0 := by
        rw [sum_range]
        exact Finset.sum_eq_zero fun k hk => pow_eq_zero_iff (two_ne_zero) |>.1 (this k hk)
      rw [hq.2] at h1
      norm_num at h1
  have np : 0 < norm2 p := Real.sqrt_pos.2 hpp
  have nq : 0 < norm2 q := Real.sqrt_pos.2 hqp
  have sp : norm2 p ^ 2 = sumSq p := Real.sq_sqrt hpp.le
  have sq' : norm2 q ^ 2 = sumSq q := Real.sq_sqrt hqp.le
  have e0 : ∑ k ∈ Finset.range q.length, pr q k * (pr q k / norm2 q) = norm2 q := by
    have : ∀ k ∈ Finset.range q.length, pr q k * (pr q k / norm2 q) = pr q k ^ 2 / norm2 q := fun k _ => by ring
    rw [Finset.sum_congr rfl this, ← Finset.sum_div]
    change sumSq q / norm2 q = norm2 q
    rw [← sq']
    field_simp
  have key : ∑ k ∈ Finset.range q.length, (pr p k / norm2 p - pr q k / norm2 q) ^ 2 =
      2 - 2 * (∑ k ∈ Finset.range q.length, pr q k * (pr p k / norm2 p)) / norm2 q := by
    have : ∀ k ∈ Finset.range q.length, (pr p k / norm2 p - pr q k / norm2 q) ^ 2 =
        pr p k ^ 2 / norm2 p ^ 2 + pr q k ^ 2 / norm2 q ^ 2 -
          2 / norm2 q * (pr q k * (pr p k / norm2 p)) := fun k _ => by
      field_simp; ring
    rw [Finset.sum_congr rfl this, Finset.sum_sub_distrib, Finset.sum_add_distrib, ← Finset.sum_div,
      ← Finset.sum_div, ← Finset.mul_sum]
    have a1 : ∑ k ∈ Finset.range q.length, pr p k ^ 2 = sumSq p := by rw [hl]; rfl
    have a2 : ∑ k ∈ Finset.range q.length, pr q k ^ 2 = sumSq q := rfl
    rw [a1, a2, sp, sq', div_self hpp.ne', div_self hqp.ne']
    ring
  rw [e0]
  constructor
  · have := Finset.sum_nonneg fun k (_ : k ∈ Finset.range q.length) =>
      sq_nonneg (pr p k / norm2 p - pr q k / norm2 q)
    rw [key] at this
    have h1 : (∑ k ∈ Finset.range q.length, pr q k * (pr p k / norm2 p)) / norm2 q ≤ 1 := by
      have : 2 * (∑ k ∈ Finset.range q.length, pr q k * (pr p k / norm2 p)) / norm2 q =
        2 * ((∑ k ∈ Finset.range q.length, pr q k * (pr p k / norm2 p)) / norm2 q) := by ring
      linarith
    rwa [div_le_one nq] at h1
  · intro he
    rw [he] at key
    have hz : ∑ k ∈ Finset.range q.length, (pr p k / norm2 p - pr q k / norm2 q) ^ 2 = 0 := by
      rw [key]; field_simp; ring
    have h4 := (Finset.sum_eq_zero_iff_of_nonneg fun k _ => sq_nonneg _).1 hz
    refine ⟨norm2 p / norm2 q, by positivity, pr_ext (by rw [List.length_map, hl]) ?_⟩
    intro k hk
    have := pow_eq_zero_iff (two_ne_zero) |>.1 (h4 k (Finset.mem_range.2 (hl ▸ hk)))
    rw [pr_map_mul]
    have h5 : pr p k / norm2 p = pr q k / norm2 q := by linarith
    have h6 : pr p k = pr p k / norm2 p * norm2 p := by field_simp
    rw [h6, h5]
    ring

theorem expected_sphere {q p : List ℝ} (hq : IsProbVec q) (b : Bool) (n : Nat) :
    ∑ k ∈ Finset.range q.length, pr q k * sphereAt b n p k =
      if b then (1 - ∑ k ∈ Finset.range q.length, pr q k * (pr p k / norm2 p)) / sphereScale n
      else -∑ k ∈ Finset.range q.length, pr q k * (pr p k / norm2 p) := by
  have h1 : ∑ k ∈ Finset.range q.length, pr q k = 1 := by rw [← sum_range, hq.2]
  unfold sphereAt
  cases b
  · simp only [Bool.false_eq_true, if_false, mul_neg, Finset.sum_neg_distrib]
  · simp only [if_true]
    have : ∀ k ∈ Finset.range q.length, pr q k * ((1 - pr p k / norm2 p) / sphereScale n) =
        (pr q k - pr q k * (pr p k / norm2 p)) / sphereScale n := fun k _ => by ring
    rw [Finset.sum_congr rfl this, ← Finset.sum_div, Finset.sum_sub_distrib, h1]

/-- **C77, proper.**  If the label has distribution `q`, then the expected spherical loss is least for the
prediction `log q`; among normalised predictions only for it, among all predictions only for those that differ from
it by a constant. -/
theorem C77_proper {q : List ℝ} (hq : IsProbVec q) {r : List (Flt ℝ)} (hr : Proper r) (hl : q.length = r.length)
    (rescale : Bool) :
    ∃ L Lq a b, sphericalLoss rescale (everyLabel r.length) (everyRow r) = .ok L ∧
      sphericalLoss rescale (everyLabel (logRow q).length) (everyRow (logRow q)) = .ok Lq ∧
      expected q L = .fin a ∧ expected q Lq = .fin b ∧ b ≤ a ∧
      (a = b → (∃ c : ℝ, 0 < c ∧ probs r = q.map fun x => x * c) ∧ (IsDist r → r = logRow q)) := by
  have hlq : (logRow q).length = q.length := by simp [logRow]
  refine ⟨_, _, _, _, spherical_every hr rescale, spherical_every (isDist_proper (isDist_logRow hq)) rescale,
    expected_map hl _, expected_map hlq.symm _, ?_⟩
  rw [probs_logRow hq.1, hlq, ← hl, expected_sphere hq, expected_sphere hq]
  obtain ⟨h1, h2⟩ := cauchy hq (p := probs r) (by rw [probs_length, hl]) (sumSq_pos hr)
  have hs := sphereScale_pos q.length
  have h3 : ∑ k ∈ Finset.range q.length, pr q k * (pr (probs r) k / norm2 (probs r)) =
      ∑ k ∈ Finset.range q.length, pr q k * (pr q k / norm2 q) →
      (∃ c : ℝ, 0 < c ∧ probs r = q.map fun x => x * c) ∧ (IsDist r → r = logRow q) := by
    intro h
    obtain ⟨c, hc, e⟩ := h2 h
    refine ⟨⟨c, hc, e⟩, fun hd => ?_⟩
    have hsum : (probs r).sum = 1 := hd.2
    rw [e, List.sum_map_mul_right, List.map_id', hq.2, one_mul] at hsum
    rw [hsum] at e
    simp only [mul_one, List.map_id'] at e
    rw [← e, logRow_probs hd.1]
  cases rescale
  · simp only [Bool.false_eq_true, if_false]
    exact ⟨by linarith, fun h => h3 (by linarith)⟩
  · simp only [if_true]
    refine ⟨(div_le_div_iff_of_pos_right hs).2 (by linarith), fun h => h3 ?_⟩
    have := (div_left_inj' hs.ne').1 h
    linarith

/-! ### Examples -/

theorem exampleProper : ∀ r ∈ (⟨3, [[.fin 0, .fin 1, .fin 1], [.ninf, .fin 0, .ninf]]⟩ : Mat ℝ).rows, Proper r := by
  intro r hr
  refine ⟨exampleClass_ok r hr, ?_⟩
  simp only [List.mem_cons, List.not_mem_nil, or_false] at hr
  rcases hr with rfl | rfl
  · exact ⟨0, by simp⟩
  · exact ⟨0, by simp⟩

example : ∃ L, sphericalLoss false ⟨'i', [2, 0]⟩ ⟨3, [[.fin 0, .fin 1, .fin 1], [.ninf, .fin 0, .ninf]]⟩ = .ok L ∧
    L[1]? = some (.fin 0) := by
  obtain ⟨⟨L, h, hs⟩, -⟩ := C77_value exampleClass exampleProper
  obtain ⟨v, h1, rfl⟩ := hs.2 1 0 _ rfl rfl
  refine ⟨L, h, ?_⟩
  rw [h1]
  simp [probs, prob, pr]

example := C77_shift (p' := ⟨3, [shiftRow 5 [.fin 0, .fin 1, .fin 1], shiftRow (-2) [.ninf, .fin 0, .ninf]]⟩)
  exampleClass exampleProper rfl (.cons ⟨5, rfl⟩ (.cons ⟨-2, rfl⟩ .nil)) true

example := C77_proper exampleDist (isDist_proper (isDist_logRow (q := [1, 0]) ⟨by norm_num, by norm_num⟩)) rfl true

end Mlp.Props
