import Verif.Props.HardLoss

/-! # Property C75: the log loss -/

namespace Mlp.Props
open Mlp.Util Mlp.Spec Mlp.Classif Mlp.Lemmas

/-- **C75, value.**  `log_loss` is minus the logarithm of the probability of the true label, plus infinity
for probability 0. -/
theorem C75_value {y : LabelVec} {p : Mat ℝ} (h : ClassInput y p) (hp : ∀ r ∈ p.rows, LogProbs r) :
    ∃ L, logLoss y p = .ok L ∧ PerSample (fun r k v => v = nll (pr (probs r) k)) y p L := by
  unfold logLoss
  rw [validate_ok h, ok_bind, pick_ok h, ok_bind]
  refine ⟨_, rfl, ?_⟩
  rw [List.map_zipWith]
  refine perSample_of h _ ?_
  intro r hr k hk
  rw [Int.toNat_natCast, pr_probs]
  have := hp r hr _ (getD_mem (r := r) (k := k) (by rw [h.rows r hr]; exact hk))
  cases hv : r.getD k .nan with
  | fin x => simp [nll, prob, Real.exp_ne_zero, Flt.neg]
  | ninf => simp [nll, prob, Flt.neg]
  | pinf => exact absurd hv this.2
  | nan => exact absurd hv this.1

theorem nll_nonneg {q : ℝ} (h0 : 0 ≤ q) (h1 : q ≤ 1) : .fin 0 ≤ nll q ∧ (nll q = .fin 0 ↔ q = 1) := by
  unfold nll
  split
  · rename_i h; rw [h]; simp
  · rename_i h
    have hpos := lt_of_le_of_ne h0 (Ne.symm h)
    have hl := Real.log_nonpos h0 h1
    refine ⟨Flt.fin_le_fin.2 (by linarith), ?_⟩
    rw [Flt.fin.injEq, neg_eq_zero, Real.log_eq_zero]
    constructor
    · rintro (h | h | h) <;> linarith
    · intro h; exact Or.inr (Or.inl h)

/-- **C75, non-negative.**  For normalised predictions the log loss is at least 0, and it is 0 exactly for
predictions that give the true label probability 1. -/
theorem C75_nonneg {y : LabelVec} {p : Mat ℝ} (h : ClassInput y p) (hp : ∀ r ∈ p.rows, IsDist r) :
    ∃ L, logLoss y p = .ok L ∧
      PerSample (fun r k v => .fin 0 ≤ v ∧ v ≠ .nan ∧ (v = .fin 0 ↔ pr (probs r) k = 1)) y p L := by
  obtain ⟨L, hL, hs⟩ := C75_value h fun r hr => (hp r hr).1
  refine ⟨L, hL, perSample_mono hs ?_⟩
  rintro r hr k v rfl
  have hq := isProbVec_probs (hp r hr)
  obtain ⟨h1, h2⟩ := nll_nonneg (pr_nonneg hq.1 k) (pr_le_one hq k)
  refine ⟨h1, ?_, h2⟩
  unfold nll
  split <;> simp

/-- The losses for every label. -/
theorem logLoss_every {r : List (Flt ℝ)} (hr : LogProbs r) (hne : r ≠ []) :
    logLoss (everyLabel r.length) (everyRow r) = .ok ((List.range r.length).map fun k => nll (pr (probs r) k)) := by
  obtain ⟨L, h1, h2⟩ := C75_value (every_ok hne) (fun s hs => by
    rw [List.eq_of_mem_replicate hs]; exact hr)
  rw [h1, every_losses (g := fun k => nll (pr (probs r) k)) (perSample_mono h2 ?_)]
  rintro s - k v rfl rfl
  rfl

theorem getD_range_map (n : Nat) (g : Nat → Flt ℝ) {k : Nat} (h : k < n) : ((List.range n).map g).getD k .nan = g k := by
  rw [getD_eq _ _ (by simpa using h)]
  simp

theorem pr_ext {q q' : List ℝ} (hl : q.length = q'.length) (h : ∀ k < q.length, pr q k = pr q' k) : q = q' := by
  apply List.ext_getElem hl
  intro k h1 h2
  have := h k h1
  unfold pr at this
  rwa [getD_eq _ _ h1, getD_eq _ _ h2] at this

/-- The expected log loss is infinite if a label that occurs has probability 0. -/
theorem expected_pinf {q : List ℝ} (hq : ∀ v ∈ q, 0 ≤ v) {n : Nat} (hn : q.length = n) {g : Nat → ℝ}
    {k : Nat} (hk : k < n) (h1 : pr q k ≠ 0) (h2 : g k = 0) :
    expected q ((List.range n).map fun j => nll (g j)) = .pinf := by
  unfold expected
  have hterm : ∀ (a : ℝ) (b : ℝ), 0 ≤ a →
      (if a = 0 then Flt.fin 0 else (Flt.fin a).mul (nll b)) ≠ .nan ∧
      (if a = 0 then Flt.fin 0 else (Flt.fin a).mul (nll b)) ≠ .ninf := by
    intro a b ha
    split
    · simp
    · rename_i h
      have : 0 < a := lt_of_le_of_ne ha (Ne.symm h)
      unfold nll
      split <;> simp [Flt.mul, Flt.signInf, this]
  apply sum_of_pinf
  · have hkq : k < q.length := hn ▸ hk
    have hp : pr q k = q[k] := by unfold pr; rw [getD_eq _ _ hkq]
    have hpos : 0 < q[k] := lt_of_le_of_ne (hq _ (List.getElem_mem hkq)) (by rw [← hp]; exact Ne.symm h1)
    have he : (List.zipWith (fun (a : ℝ) l => if a = 0 then Flt.fin 0 else (Flt.fin a).mul l) q
        ((List.range n).map fun j => nll (g j)))[k]? = some .pinf := by
      rw [List.getElem?_zipWith, List.getElem?_eq_getElem hkq, List.getElem?_map, List.getElem?_range hk]
      simp only [Option.map_some]
      rw [if_neg hpos.ne', h2]
      simp [nll, Flt.mul, Flt.signInf, hpos]
    exact List.mem_of_getElem? he
  · intro v hv
    rw [← List.map_uncurry_zip_eq_zipWith] at hv
    obtain ⟨⟨a, b⟩, hm, rfl⟩ := List.mem_map.1 hv
    obtain ⟨g1, g2⟩ := List.of_mem_zip hm
    obtain ⟨j, -, rfl⟩ := List.mem_map.1 g2
    exact hterm a (g j) (hq a g1)

theorem expected_nll {q : List ℝ} {n : Nat} (hn : q.length = n) {g : Nat → ℝ}
    (h : ∀ k < n, pr q k ≠ 0 → g k ≠ 0) :
    expected q ((List.range n).map fun j => nll (g j)) =
      .fin (∑ k ∈ Finset.range n, pr q k * -Real.log (g k)) := by
  subst hn
  apply expected_fin (by simp)
  intro k hk h0
  rw [getD_range_map _ _ hk]
  unfold nll
  rw [if_neg (h k hk h0)]

/-- Gibbs' inequality, with the case of equality. -/
theorem gibbs {q p : List ℝ} (hq : IsProbVec q) (hp : IsProbVec p) (hl : q.length = p.length)
    (h0 : ∀ k < q.length, pr q k ≠ 0 → pr p k ≠ 0) :
    ∑ k ∈ Finset.range q.length, pr q k * -Real.log (pr q k) ≤
      ∑ k ∈ Finset.range q.length, pr q k * -Real.log (pr p k) ∧
    (∑ k ∈ Finset.range q.length, pr q k * -Real.log (pr q k) =
      ∑ k ∈ Finset.range q.length, pr q k * -Real.log (pr p k) → q = p) := by
  have hsum : ∑ k ∈ Finset.range q.length, (pr p k - pr q k) = 0 := by
    rw [Finset.sum_sub_distrib, ← sum_range q, hl, ← sum_range p, hq.2, hp.2, sub_self]
  -- each term
  have hterm : ∀ k ∈ Finset.range q.length,
      0 ≤ (pr p k - pr q k) + (pr q k * -Real.log (pr p k) - pr q k * -Real.log (pr q k)) ∧
      ((pr p k - pr q k) + (pr q k * -Real.log (pr p k) - pr q k * -Real.log (pr q k)) = 0 →
        pr q k = pr p k) := by
    intro k hk
    have hk' := Finset.mem_range.1 hk
    by_cases hz : pr q k = 0
    · rw [hz]
      simp only [zero_mul, sub_zero, add_zero]
      exact ⟨pr_nonneg hp.1 k, fun h => h.symm⟩
    · have hqp : 0 < pr q k := lt_of_le_of_ne (pr_nonneg hq.1 k) (Ne.symm hz)
      have hpp : 0 < pr p k := lt_of_le_of_ne (pr_nonneg hp.1 k) (Ne.symm (h0 k hk' hz))
      have hr : 0 < pr p k / pr q k := by positivity
      have hlog : Real.log (pr p k / pr q k) = Real.log (pr p k) - Real.log (pr q k) :=
        Real.log_div hpp.ne' hqp.ne'
      have e : (pr p k - pr q k) + (pr q k * -Real.log (pr p k) - pr q k * -Real.log (pr q k)) =
          pr q k * (pr p k / pr q k - 1 - Real.log (pr p k / pr q k)) := by
        rw [hlog]; field_simp; ring
      rw [e]
      constructor
      · have := Real.log_le_sub_one_of_pos hr
        exact mul_nonneg hqp.le (by linarith)
      · intro h
        rcases mul_eq_zero.1 h with h | h
        · exact absurd h hz
        · by_contra hne
          have h1 : pr p k / pr q k ≠ 1 := by
            rw [Ne, div_eq_one_iff_eq hz]; exact fun h => hne h.symm
          have := Real.log_lt_sub_one_of_pos hr h1
          linarith
  have htot : ∑ k ∈ Finset.range q.length,
      ((pr p k - pr q k) + (pr q k * -Real.log (pr p k) - pr q k * -Real.log (pr q k))) =
      ∑ k ∈ Finset.range q.length, pr q k * -Real.log (pr p k) -
      ∑ k ∈ Finset.range q.length, pr q k * -Real.log (pr q k) := by
    rw [Finset.sum_add_distrib, hsum, Finset.sum_sub_distrib, zero_add]
  constructor
  · have := Finset.sum_nonneg fun k hk => (hterm k hk).1
    rw [htot] at this
    linarith
  · intro heq
    have hzero : ∑ k ∈ Finset.range q.length,
      ((pr p k - pr q k) + (pr q k * -Real.log (pr p k) - pr q k * -Real.log (pr q k))) = 0 := by
      rw [htot, heq, sub_self]
    have := (Finset.sum_eq_zero_iff_of_nonneg fun k hk => (hterm k hk).1).1 hzero
    exact pr_ext hl fun k hk => (hterm k (Finset.mem_range.2 hk)).2 (this k (Finset.mem_range.2 hk))

/-- **C75, proper.**  If the label has distribution `q`, then the expected log loss is least for the
prediction `log q`, and only for it. -/
theorem C75_proper {q : List ℝ} (hq : IsProbVec q) {r : List (Flt ℝ)} (hr : IsDist r) (hl : q.length = r.length) :
    ∃ L Lq, logLoss (everyLabel r.length) (everyRow r) = .ok L ∧
      logLoss (everyLabel (logRow q).length) (everyRow (logRow q)) = .ok Lq ∧
      (∃ b : ℝ, expected q Lq = .fin b) ∧ expected q Lq ≤ expected q L ∧
      (expected q L = expected q Lq → r = logRow q) := by
  have hlq : (logRow q).length = q.length := by simp [logRow]
  have hqne : logRow q ≠ [] := isDist_ne_nil (isDist_logRow hq)
  refine ⟨_, _, logLoss_every hr.1 (isDist_ne_nil hr), logLoss_every (logRow_ok q) hqne, ?_⟩
  rw [probs_logRow hq.1, hlq, ← hl]
  have e1 := expected_nll (q := q) rfl (g := pr q) fun k _ h => h
  rw [e1]
  refine ⟨⟨_, rfl⟩, ?_⟩
  by_cases h0 : ∀ k < q.length, pr q k ≠ 0 → pr (probs r) k ≠ 0
  · have e2 := expected_nll (q := q) rfl (g := pr (probs r)) h0
    rw [e2]
    obtain ⟨g1, g2⟩ := gibbs hq (isProbVec_probs hr) (by rw [probs_length, hl]) h0
    refine ⟨Flt.fin_le_fin.2 g1, fun h => ?_⟩
    rw [Flt.fin.injEq] at h
    rw [g2 h.symm, logRow_probs hr.1]
  · push Not at h0
    obtain ⟨k, hk, h1, h2⟩ := h0
    rw [expected_pinf hq.1 rfl hk h1 h2]
    exact ⟨Flt.fin_le_pinf _, fun h => by cases h⟩

/-! ### Examples -/

example : ∃ L, logLoss ⟨'i', [2, 0]⟩ ⟨3, [[.fin 0, .fin 1, .fin 1], [.ninf, .fin 0, .ninf]]⟩ = .ok L ∧
    L[1]? = some .pinf := by
  obtain ⟨L, h, hs⟩ := C75_value exampleClass exampleClass_ok
  obtain ⟨v, h1, rfl⟩ := hs.2 1 0 _ rfl rfl
  exact ⟨L, h, by rw [h1]; simp [nll, pr, probs, prob]⟩

theorem exampleDist : IsProbVec [1 / 4, 3 / 4] := ⟨by norm_num, by norm_num⟩

example := C75_proper exampleDist (isDist_logRow (q := [1, 0]) ⟨by norm_num, by norm_num⟩) rfl

end Mlp.Props
