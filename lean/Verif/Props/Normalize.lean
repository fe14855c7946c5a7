import Verif.Model.Util
import Verif.Spec.Prob
import Verif.Lemmas.PyLemmas
import Verif.Lemmas.Clip
import Mathlib.Algebra.Order.BigOperators.Group.List

/-! # C55: `normalize` -/

namespace Mlp.Props
open Mlp.Util Mlp.Spec

theorem prob_nonneg (v : Flt ℝ) : 0 ≤ prob v := by
  cases v <;> simp [prob, Real.exp_nonneg]

theorem prob_sum_nonneg (r : List (Flt ℝ)) : 0 ≤ (r.map prob).sum :=
  List.sum_nonneg (by
    intro x hx
    obtain ⟨v, -, rfl⟩ := List.mem_map.1 hx
    exact prob_nonneg v)

theorem prob_le_sum {r : List (Flt ℝ)} {v : Flt ℝ} (h : v ∈ r) : prob v ≤ (r.map prob).sum :=
  List.single_le_sum (by
    intro x hx
    obtain ⟨v, -, rfl⟩ := List.mem_map.1 hx
    exact prob_nonneg v) _ (List.mem_map_of_mem h)

theorem proper_sum_pos {r : List (Flt ℝ)} (h : Proper r) : 0 < (r.map prob).sum := by
  obtain ⟨x, hx⟩ := h.2
  exact lt_of_lt_of_le (Real.exp_pos x) (prob_le_sum hx)

theorem isDist_proper {r : List (Flt ℝ)} (h : IsDist r) : Proper r := by
  refine ⟨h.1, ?_⟩
  by_contra hc
  push Not at hc
  have : (r.map prob).sum = 0 := by
    apply List.sum_eq_zero
    intro x hx
    obtain ⟨v, hv, rfl⟩ := List.mem_map.1 hx
    cases v with
    | fin x => exact absurd hv (hc x)
    | _ => rfl
  rw [h.2] at this
  norm_num at this

/-- The maximum of a row: at least every entry, and an entry or `-inf`. -/
theorem amax_spec (r : List (Flt ℝ)) : (∀ v ∈ r, v ≤ amax r) ∧ (amax r ∈ r ∨ amax r = .ninf) := by
  have key : ∀ (r : List (Flt ℝ)) (a : Flt ℝ), a ≤ r.foldl Flt.maximum a ∧
      (∀ v ∈ r, v ≤ r.foldl Flt.maximum a) ∧ (r.foldl Flt.maximum a ∈ r ∨ r.foldl Flt.maximum a = a) := by
    intro r
    induction r with
    | nil => intro a; simp
    | cons b r ih =>
      intro a
      rw [List.foldl_cons]
      obtain ⟨h1, h2, h3⟩ := ih (Flt.maximum a b)
      refine ⟨(le_max_left a b).trans h1, ?_, ?_⟩
      · intro v hv
        rcases List.mem_cons.1 hv with rfl | hv
        · exact (le_max_right a v).trans h1
        · exact h2 v hv
      · rcases h3 with h3 | h3
        · left; simp [h3]
        · rw [h3]
          unfold Flt.maximum
          rcases max_choice a b with h | h <;> rw [h] <;> simp
  obtain ⟨-, h2, h3⟩ := key r .ninf
  exact ⟨h2, h3⟩

theorem amax_proper {r : List (Flt ℝ)} (h : Proper r) : ∃ m : ℝ, amax r = .fin m := by
  obtain ⟨h1, h2⟩ := amax_spec r
  obtain ⟨x, hx⟩ := h.2
  have hx' := h1 _ hx
  rcases h2 with h2 | h2
  · cases hm : amax r with
    | fin m => exact ⟨m, rfl⟩
    | ninf => rw [hm] at hx'; simp at hx'
    | pinf => rw [hm] at h2; exact absurd rfl (h.1 _ h2).2
    | nan => rw [hm] at h2; exact absurd rfl (h.1 _ h2).1
  · rw [h2] at hx'; simp at hx'

/-- For a proper row `logsumexp` is the logarithm of the total probability. -/
theorem logsumexp_proper {r : List (Flt ℝ)} (h : Proper r) :
    logsumexp r = .fin (Real.log (r.map prob).sum) := by
  obtain ⟨m, hm⟩ := amax_proper h
  unfold logsumexp
  rw [hm]
  simp only [Flt.isFinite, if_true]
  have e : (r.map fun v => fexp (v.sub (.fin m))) =
      (r.map fun v => prob v * Real.exp (-m)).map Flt.fin := by
    rw [List.map_map]
    apply List.map_congr_left
    intro v hv
    have := h.1 v hv
    cases v with
    | fin x => simp [fexp, prob, ← Real.exp_add, sub_eq_add_neg]
    | ninf => simp [fexp, prob, Flt.sub, Flt.add, Flt.neg]
    | pinf => simp at this
    | nan => simp at this
  rw [e, Flt.sum_fin, List.sum_map_mul_right]
  have hp := proper_sum_pos h
  simp only [flog, mul_pos hp (Real.exp_pos _), if_true, Flt.add_fin]
  rw [Real.log_mul hp.ne' (Real.exp_pos _).ne', Real.log_exp]
  congr 1; ring

theorem prob_shift {v : Flt ℝ} (h : v ≠ .nan ∧ v ≠ .pinf) (c : ℝ) :
    prob (v.sub (.fin c)) = prob v * Real.exp (-c) := by
  cases v with
  | fin x => simp [prob, ← Real.exp_add, sub_eq_add_neg]
  | ninf => simp [prob, Flt.sub, Flt.add, Flt.neg]
  | pinf => simp at h
  | nan => simp at h

theorem sum_shift {r : List (Flt ℝ)} (h : ∀ v ∈ r, v ≠ .nan ∧ v ≠ .pinf) (c : ℝ) :
    ((shiftRow c r).map prob).sum = (r.map prob).sum * Real.exp (-c) := by
  unfold shiftRow
  rw [List.map_map, ← List.sum_map_mul_right]
  refine congrArg List.sum (List.map_congr_left fun v hv => ?_)
  exact prob_shift (h v hv) c

theorem proper_shift {r : List (Flt ℝ)} (h : Proper r) (c : ℝ) : Proper (shiftRow c r) := by
  constructor
  · intro v hv
    obtain ⟨w, hw, rfl⟩ := List.mem_map.1 hv
    have := h.1 w hw
    cases w <;> simp_all [Flt.sub, Flt.add, Flt.neg]
  · obtain ⟨x, hx⟩ := h.2
    exact ⟨x - c, List.mem_map.2 ⟨_, hx, by simp⟩⟩

theorem shift_shift (c d : ℝ) (r : List (Flt ℝ)) : shiftRow d (shiftRow c r) = shiftRow (c + d) r := by
  unfold shiftRow
  rw [List.map_map]
  refine List.map_congr_left fun v _ => ?_
  cases v <;> simp [Flt.sub, Flt.add, Flt.neg]; ring

theorem shift_zero (r : List (Flt ℝ)) : shiftRow 0 r = r := by
  unfold shiftRow
  conv_rhs => rw [← List.map_id r]
  refine List.map_congr_left fun v _ => ?_
  cases v <;> simp [Flt.sub, Flt.add, Flt.neg]

theorem normalize_row {r : List (Flt ℝ)} (h : Proper r) :
    (r.map fun v => v.sub (logsumexp r)) = shiftRow (Real.log (r.map prob).sum) r := by
  rw [logsumexp_proper h]; rfl

/-- C55: every proper row becomes a probability distribution by subtracting one constant from all its
entries, so the differences and the ranking within the row stay. -/
theorem C55_normalize {p : Mat ℝ} (hc : 1 ≤ p.ncols) (hp : ∀ r ∈ p.rows, Proper r) :
    ∃ q, normalizeRows p = .ok q ∧ q.ncols = p.ncols ∧
      List.Forall₂ (fun r r' => IsDist r' ∧ ∃ c : ℝ, r' = shiftRow c r) p.rows q.rows := by
  unfold normalizeRows
  rw [pyAssert_bind, if_pos (by simpa using hc)]
  refine ⟨_, rfl, rfl, ?_⟩
  rw [List.forall₂_map_right_iff]
  apply List.forall₂_same.2
  intro r hr
  have h := hp r hr
  rw [normalize_row h]
  refine ⟨⟨(proper_shift h _).1, ?_⟩, _, rfl⟩
  rw [sum_shift h.1, Real.exp_neg, Real.exp_log (proper_sum_pos h)]
  exact mul_inv_cancel₀ (proper_sum_pos h).ne'

/-- C55: there is only one such constant. -/
theorem C55_unique {r : List (Flt ℝ)} {c d : ℝ} (h : ∀ v ∈ r, v ≠ .nan ∧ v ≠ .pinf)
    (h1 : IsDist (shiftRow c r)) (h2 : IsDist (shiftRow d r)) : c = d := by
  have e1 := h1.2
  have e2 := h2.2
  rw [sum_shift h] at e1 e2
  have : (r.map prob).sum ≠ 0 := by
    intro h0; rw [h0] at e1; norm_num at e1
  have := mul_left_cancel₀ this (e1.trans e2.symm)
  have := Real.exp_injective this
  linarith

/-- C55: the first row normalises to the second; adding constants to rows does not change the result. -/
theorem C55_shift_invariant {p p' : Mat ℝ} (hn : p.ncols = p'.ncols) (hp : ∀ r ∈ p.rows, Proper r)
    (h : List.Forall₂ (fun r r' => ∃ c : ℝ, r' = shiftRow c r) p.rows p'.rows) :
    normalizeRows p = normalizeRows p' := by
  unfold normalizeRows
  rw [hn]
  congr 1
  funext _
  congr 2
  rw [← List.forall₂_eq_eq_eq, List.forall₂_map_left_iff, List.forall₂_map_right_iff]
  obtain ⟨n, rows⟩ := p
  obtain ⟨n', rows'⟩ := p'
  simp only at h hp ⊢
  clear hn
  induction h with
  | nil => exact .nil
  | @cons r r' l l' hr _ ih =>
    refine .cons ?_ (ih fun r hr => hp r (by simp [hr]))
    obtain ⟨c, rfl⟩ := hr
    have h := hp r (by simp)
    rw [normalize_row h, normalize_row (proper_shift h c), shift_shift, sum_shift h.1,
      Real.log_mul (proper_sum_pos h).ne' (Real.exp_pos _).ne', Real.log_exp]
    congr 1; ring

/-- C55: rows that are distributions stay, in particular `normalize` is idempotent. -/
theorem C55_fixed {p : Mat ℝ} (hc : 1 ≤ p.ncols) (hp : ∀ r ∈ p.rows, IsDist r) : normalizeRows p = .ok p := by
  unfold normalizeRows
  rw [pyAssert_bind, if_pos (by simpa using hc)]
  have : (p.rows.map fun r => r.map fun v => v.sub (logsumexp r)) = p.rows := by
    conv_rhs => rw [← List.map_id p.rows]
    refine List.map_congr_left fun r hr => ?_
    rw [normalize_row (isDist_proper (hp r hr)), (hp r hr).2, Real.log_one, shift_zero]; rfl
  rw [this]; rfl

theorem C55_idempotent {p q : Mat ℝ} (hp : ∀ r ∈ p.rows, Proper r) (h : normalizeRows p = .ok q) :
    normalizeRows q = .ok q := by
  have hc : 1 ≤ p.ncols := by
    by_contra hc
    unfold normalizeRows at h
    rw [pyAssert_bind, if_neg (by simpa using hc)] at h
    cases h
  obtain ⟨q', hq, hn, hall⟩ := C55_normalize hc hp
  rw [h] at hq
  cases hq
  refine C55_fixed (by omega) ?_
  intro r hr
  have : ∀ r' ∈ q.rows, IsDist r' := by
    clear h hn hr hc hp
    generalize p.rows = a at hall
    generalize q.rows = b at hall
    induction hall with
    | nil => simp
    | cons h _ ih =>
      intro r' hr'
      rcases List.mem_cons.1 hr' with rfl | hr'
      · exact h.1
      · exact ih r' hr'
  exact this r hr

theorem sum_of_nan {l : List (Flt ℝ)} (h : Flt.nan ∈ l) : Flt.sum l = .nan := by
  unfold Flt.sum
  have hn : ∀ l : List (Flt ℝ), l.foldl Flt.add .nan = .nan := by
    intro l
    induction l with
    | nil => rfl
    | cons a l ih => rw [List.foldl_cons]; cases a <;> exact ih
  have key : ∀ (l : List (Flt ℝ)) a, Flt.nan ∈ l → l.foldl Flt.add a = .nan := by
    intro l
    induction l with
    | nil => intro a h; simp at h
    | cons b l ih =>
      intro a h
      rw [List.foldl_cons]
      rcases List.mem_cons.1 h with rfl | h
      · have : a.add .nan = .nan := by cases a <;> rfl
        rw [this, hn]
      · exact ih _ h
  exact key l _ h

theorem sum_of_pinf {l : List (Flt ℝ)} (h : Flt.pinf ∈ l) (h1 : ∀ v ∈ l, v ≠ .nan ∧ v ≠ .ninf) :
    Flt.sum l = .pinf := by
  unfold Flt.sum
  have hn : ∀ l : List (Flt ℝ), (∀ v ∈ l, v ≠ .nan ∧ v ≠ .ninf) → l.foldl Flt.add .pinf = .pinf := by
    intro l
    induction l with
    | nil => intro _; rfl
    | cons a l ih =>
      intro h
      rw [List.foldl_cons]
      have := h a (by simp)
      cases a with
      | nan => simp at this
      | ninf => simp at this
      | _ => exact ih fun v hv => h v (by simp [hv])
  have key : ∀ (l : List (Flt ℝ)) (a : Flt ℝ), a ≠ .nan ∧ a ≠ .ninf → (∀ v ∈ l, v ≠ .nan ∧ v ≠ .ninf) →
      Flt.pinf ∈ l → l.foldl Flt.add a = .pinf := by
    intro l
    induction l with
    | nil => intro a _ _ h; simp at h
    | cons b l ih =>
      intro a ha hl h
      rw [List.foldl_cons]
      have hb := hl b (by simp)
      have hl' : ∀ v ∈ l, v ≠ .nan ∧ v ≠ .ninf := fun v hv => hl v (by simp [hv])
      rcases List.mem_cons.1 h with rfl | h
      · have : a.add .pinf = .pinf := by cases a <;> simp_all [Flt.add]
        rw [this, hn l hl']
      · refine ih _ ?_ hl' h
        cases a <;> cases b <;> simp_all [Flt.add]
  exact key l _ (by simp) h1 h

/-- C55: what happens to improper rows.  All `-inf`, or some NaN: everything becomes NaN.  Some `+inf`:
NaN in these places. -/
theorem C55_improper {p : Mat ℝ} (hc : 1 ≤ p.ncols) :
    ∃ q, normalizeRows p = .ok q ∧ List.Forall₂ (fun r r' => r'.length = r.length ∧
      ((∀ v ∈ r, v = .ninf) ∨ Flt.nan ∈ r → ∀ w ∈ r', w = .nan) ∧
      (Flt.pinf ∈ r → Flt.nan ∉ r → List.Forall₂ (fun v w => w = if v = .pinf then .nan else .ninf) r r'))
      p.rows q.rows := by
  unfold normalizeRows
  rw [pyAssert_bind, if_pos (by simpa using hc)]
  refine ⟨_, rfl, ?_⟩
  rw [List.forall₂_map_right_iff]
  apply List.forall₂_same.2
  intro r _
  refine ⟨by simp, ?_, ?_⟩
  · rintro (h | h)
    · have ha : amax r = .ninf := by
        rcases (amax_spec r).2 with h' | h'
        · exact h _ h'
        · exact h'
      have : logsumexp r = .ninf := by
        unfold logsumexp
        rw [ha]
        simp only [Flt.isFinite, Bool.false_eq_true, if_false]
        have : (r.map fun v => fexp (v.sub (.fin 0))) = (r.map fun _ => (0 : ℝ)).map Flt.fin := by
          rw [List.map_map]
          refine List.map_congr_left fun v hv => ?_
          rw [h v hv]; simp [fexp, Flt.sub, Flt.add, Flt.neg]
        rw [this, Flt.sum_fin]
        simp [flog, Flt.add]
      intro w hw
      obtain ⟨v, hv, rfl⟩ := List.mem_map.1 hw
      rw [this, h v hv]; rfl
    · have ha : amax r = .nan := by
        have := (amax_spec r).1 _ h
        simpa using this
      have : logsumexp r = .nan := by
        unfold logsumexp
        rw [ha]
        simp only [Flt.isFinite, Bool.false_eq_true, if_false]
        rw [sum_of_nan (List.mem_map.2 ⟨_, h, rfl⟩)]
        rfl
      intro w hw
      obtain ⟨v, hv, rfl⟩ := List.mem_map.1 hw
      rw [this]; cases v <;> rfl
  · intro h hn
    have ha : amax r = .pinf := by
      have h1 := (amax_spec r).1 _ h
      have h2 := (amax_spec r).2
      cases hm : amax r with
      | pinf => rfl
      | nan => rw [hm] at h2; simp at h2; exact absurd h2 hn
      | ninf => rw [hm] at h1; simp at h1
      | fin m => rw [hm] at h1; simp at h1
    have : logsumexp r = .pinf := by
      unfold logsumexp
      rw [ha]
      simp only [Flt.isFinite, Bool.false_eq_true, if_false]
      rw [sum_of_pinf (List.mem_map.2 ⟨_, h, rfl⟩)]
      · rfl
      · intro w hw
        obtain ⟨v, hv, rfl⟩ := List.mem_map.1 hw
        have : v ≠ .nan := fun h => hn (h ▸ hv)
        cases v <;> simp_all [fexp, Flt.sub, Flt.add, Flt.neg]
    rw [List.forall₂_map_right_iff]
    apply List.forall₂_same.2
    intro v hv
    have hv' : v ≠ .nan := fun h => hn (h ▸ hv)
    rw [this]
    cases v <;> simp_all [Flt.sub, Flt.add, Flt.neg]

/-- C55: a matrix without columns is rejected. -/
theorem C55_reject {p : Mat ℝ} (hc : p.ncols = 0) : normalizeRows p = .error .assertion := by
  unfold normalizeRows
  rw [pyAssert_bind, if_neg (by simp [hc])]

/-- Two rows, one with an impossible label: `[log 1, log 3]` becomes `[1/4, 3/4]`. -/
example : normalizeRows ⟨2, [[.fin 0, .fin (Real.log 3)], [.ninf, .fin 7]]⟩ =
    .ok ⟨2, [[.fin (-Real.log 4), .fin (Real.log 3 - Real.log 4)], [.ninf, .fin 0]]⟩ := by
  have h1 : Proper [.fin 0, .fin (Real.log 3)] := ⟨by simp, 0, by simp⟩
  have h2 : Proper [.ninf, .fin 7] := ⟨by simp, 7, by simp⟩
  unfold normalizeRows
  rw [pyAssert_bind, if_pos (by decide)]
  simp only [List.map_cons, List.map_nil, logsumexp_proper h1, logsumexp_proper h2]
  have e : (1 : ℝ) + 3 = 4 := by norm_num
  simp [prob, Flt.sub, Flt.add, Flt.neg, Real.exp_log, e, sub_eq_add_neg]
  rfl

end Mlp.Props
