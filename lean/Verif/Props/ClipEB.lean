import Verif.Lemmas.Clip
import Mathlib.Algebra.Order.Ring.Rat

/-! # C44: clipping of error bars -/

set_option linter.unusedSectionVars false

namespace Mlp.Props
open Mlp.Paper Mlp.Util

section
variable {K : Type} [Field K] [LinearOrder K] [IsStrictOrderedRing K]

/-- The limits are acceptable: `lower ≤ upper`, neither NaN nor the same infinity twice. -/
def ValidLimits (lower upper : Flt K) : Prop :=
  lower ≠ .nan ∧ upper ≠ .nan ∧ lower ≤ upper ∧ lower ≠ .pinf ∧ upper ≠ .ninf

theorem range_ok_iff (lower upper : Flt K) :
    (Flt.fin 0).le (upper.sub lower) = true ↔ ValidLimits lower upper := by
  unfold ValidLimits
  rw [Flt.le_iff]
  cases lower <;> cases upper <;> simp [Flt.sub, Flt.add, Flt.neg]

/-- The trivial error bar is a float, at least half of the range. -/
theorem trivial_facts {mu lower upper : Flt K} (hv : ValidLimits lower upper) (hl : lower ≤ mu)
    (hu : mu ≤ upper) {b : K} (hb : ¬ upper.sub lower < .fin (2 * b)) :
    Flt.fmax (upper.sub mu) (mu.sub lower) ≠ .nan ∧
      Flt.fin b ≤ Flt.fmax (upper.sub mu) (mu.sub lower) := by
  obtain ⟨h1, h2, h3, h4, h5⟩ := hv
  cases mu <;> cases lower <;> cases upper <;>
    simp_all [Flt.sub, Flt.add, Flt.neg, Flt.fmax, Flt.max_fin, -lt_sup_iff]
  rename_i m l u
  by_contra hc
  push Not at hc
  linarith

/-- C44: for limits that make sense, a minimum `b` and an estimate that is not NaN: the estimate must
be inside the limits and the minimum at most half of the range, otherwise ValueError. -/
theorem C44_value_error {mu lower upper : Flt K} (EB : Flt K) (hv : ValidLimits lower upper)
    (hmu : mu ≠ .nan) {b : K} (hb : 0 ≤ b) :
    (clipEB mu EB lower upper (.fin b) = .error .valueError ↔
      ¬ (lower ≤ mu ∧ mu ≤ upper) ∨ upper.sub lower < .fin (2 * b)) ∧
    ((lower ≤ mu ∧ mu ≤ upper ∧ Flt.fin (2 * b) ≤ upper.sub lower) →
      ∃ e, clipEB mu EB lower upper (.fin b) = .ok e) := by
  have e0 := (range_ok_iff lower upper).2 hv
  have e1 : ((Flt.fin 0).le (.fin b) && (Flt.fin b).lt .pinf) = true := by
    rw [Bool.and_eq_true, Flt.le_iff, Flt.lt_iff]
    refine ⟨⟨by simp, by simpa using hb⟩, by simp, ?_⟩
    rw [← not_le]; simp
  have e2 : (mu.lt lower || upper.lt mu) = true ↔ ¬ (lower ≤ mu ∧ mu ≤ upper) := by
    rw [Bool.or_eq_true, Flt.lt_iff' hv.1, Flt.lt_iff' hmu, not_and_or, not_le, not_le]
  have e3 : ((upper.sub lower).lt ((Flt.fin 2).mul (.fin b)) = true) ↔
      upper.sub lower < .fin (2 * b) := by
    rw [Flt.mul_fin, Flt.lt_iff' (by simp)]
  unfold clipEB
  rw [pyAssert_bind, if_pos e0, pyAssert_bind, if_pos e1]
  constructor
  · by_cases h1 : ¬ (lower ≤ mu ∧ mu ≤ upper)
    · rw [if_pos (e2.2 h1)]; simp [h1]
    · rw [if_neg (fun h => h1 (e2.1 h))]
      by_cases h2 : upper.sub lower < .fin (2 * b)
      · rw [if_pos (e3.2 h2)]; simp [h2]
      · rw [if_neg (fun h => h2 (e3.1 h))]
        push Not at h1
        obtain ⟨t1, t2⟩ := trivial_facts hv h1.1 h1.2 h2
        rw [pyAssert_bind, if_pos]
        · simp [pure_eq_ok, h1, h2]
        · rw [Bool.not_eq_true', ← Bool.not_eq_true, Flt.lt_iff' (by simp), not_lt]; exact t2
  · rintro ⟨h1, h2, h3⟩
    rw [if_neg (fun h => e2.1 h ⟨h1, h2⟩), if_neg (fun h => not_lt.2 h3 (e3.1 h))]
    obtain ⟨t1, t2⟩ := trivial_facts hv h1 h2 (not_lt.2 h3)
    rw [pyAssert_bind, if_pos]
    · exact ⟨_, rfl⟩
    · rw [Bool.not_eq_true', ← Bool.not_eq_true, Flt.lt_iff' (by simp), not_lt]; exact t2

/-- C44: the limits must make sense and the minimum must be a non-negative number. -/
theorem C44_reject (mu EB lower upper minEB : Flt K)
    (h : ¬ ValidLimits lower upper ∨ ∀ b : K, minEB = .fin b → b < 0) :
    clipEB mu EB lower upper minEB = .error .assertion := by
  unfold clipEB
  rw [pyAssert_bind]
  by_cases h0 : (Flt.fin 0).le (upper.sub lower) = true
  · rw [if_pos h0]
    rw [range_ok_iff] at h0
    rw [pyAssert_bind, if_neg]
    rw [Bool.and_eq_true, Flt.le_iff, Flt.lt_iff]
    rcases h with h | h
    · exact absurd h0 h
    · rintro ⟨⟨a1, a2⟩, -, a3⟩
      cases minEB with
      | fin b => exact absurd (h b rfl) (not_lt.2 (by simpa using a2))
      | pinf => exact absurd a3 (lt_irrefl _)
      | ninf => simp at a2
      | nan => exact a1 rfl
  · rw [if_neg h0]

/-- The value in the accepting case. -/
theorem clipEB_value {mu lower upper : Flt K} (EB : Flt K) (hv : ValidLimits lower upper)
    {b : K} (hb : 0 ≤ b) (h1 : lower ≤ mu) (h2 : mu ≤ upper)
    (h3 : Flt.fin (2 * b) ≤ upper.sub lower) :
    clipEB mu EB lower upper (.fin b) =
      .ok (EB.clip (.fin b) (Flt.fmax (upper.sub mu) (mu.sub lower))) := by
  have hmu : mu ≠ .nan := by
    rintro rfl
    exact hv.2.1 ((Flt.nan_le_iff _).1 h2)
  obtain ⟨e, he⟩ := (C44_value_error EB hv hmu hb).2 ⟨h1, h2, h3⟩
  rw [he]
  unfold clipEB at he
  rw [pyAssert_bind, pyAssert_bind] at he
  split_ifs at he
  rw [pyAssert_bind] at he
  split_ifs at he
  cases he; rfl

/-- C44: the clipped bar lies between the minimum and the trivial bar, keeps a bar that is already
there, covers every value allowed by the limits that the old bar covered, and clipping again changes
nothing.  A NaN bar stays NaN. -/
theorem C44_clip {m : K} {lower upper : Flt K} {EB : Flt K} (hv : ValidLimits lower upper)
    {b : K} (hb : 0 ≤ b) (h1 : lower ≤ .fin m) (h2 : .fin m ≤ upper)
    (h3 : Flt.fin (2 * b) ≤ upper.sub lower) :
    ∃ e, clipEB (.fin m) EB lower upper (.fin b) = .ok e ∧
      (EB = .nan → e = .nan) ∧
      (EB ≠ .nan → e ≠ .nan ∧ .fin b ≤ e ∧
        (∀ l u : K, lower = .fin l → upper = .fin u → e ≤ .fin (max (u - m) (m - l))) ∧
        (.fin b ≤ EB → e ≤ EB) ∧
        (.fin b ≤ EB → (∀ l u : K, lower = .fin l → upper = .fin u → EB ≤ .fin (max (u - m) (m - l))) →
          e = EB) ∧
        (EB < .fin b → e = .fin b) ∧
        (∀ θ : K, lower ≤ .fin θ → .fin θ ≤ upper → .fin |θ - m| ≤ EB → .fin |θ - m| ≤ e)) ∧
      clipEB (.fin m) e lower upper (.fin b) = .ok e := by
  obtain ⟨t1, t2⟩ := trivial_facts hv h1 h2 (not_lt.2 h3)
  refine ⟨_, clipEB_value EB hv hb h1 h2 h3, ?_, ?_, ?_⟩
  · rintro rfl; exact Flt.clip_nan _ _
  · intro hE
    obtain ⟨c1, c2, c3⟩ := Flt.clip_mem hE (by simp) t1 t2
    have htriv : ∀ l u : K, lower = .fin l → upper = .fin u →
        Flt.fmax (upper.sub (.fin m)) ((Flt.fin m).sub lower) = .fin (max (u - m) (m - l)) := by
      rintro l u rfl rfl; simp
    have hinf : (¬ ∃ l u : K, lower = .fin l ∧ upper = .fin u) →
        Flt.fmax (upper.sub (.fin m)) ((Flt.fin m).sub lower) = .pinf := by
      intro hne
      obtain ⟨v1, v2, v3, v4, v5⟩ := hv
      cases lower <;> cases upper <;> simp_all [Flt.sub, Flt.add, Flt.neg, Flt.fmax]
    refine ⟨c3, c1, fun l u hl hu => htriv l u hl hu ▸ c2, fun hbE => ?_, fun hbE hle => ?_,
      fun hlt => ?_, fun θ a1 a2 a3 => ?_⟩
    · rw [Flt.clip_eq hE (by simp) t1, if_neg (not_lt.2 hbE)]
      split_ifs with h
      · exact h.le
      · exact le_rfl
    · apply Flt.clip_id hE (by simp) t1 hbE
      by_cases hlim : ∃ l u : K, lower = .fin l ∧ upper = .fin u
      · obtain ⟨l, u, hl, hu⟩ := hlim
        rw [htriv l u hl hu]; exact hle l u hl hu
      · rw [hinf hlim]; exact Flt.le_pinf hE
    · rw [Flt.clip_eq hE (by simp) t1, if_pos hlt]
    · rw [Flt.clip_eq hE (by simp) t1]
      split_ifs with g1 g2
      · exact a3.trans g1.le
      · by_cases hlim : ∃ l u : K, lower = .fin l ∧ upper = .fin u
        · obtain ⟨l, u, hl, hu⟩ := hlim
          rw [htriv l u hl hu, Flt.fin_le_fin]
          subst hl hu
          rw [Flt.fin_le_fin] at a1 a2
          apply abs_le.2
          constructor
          · have := le_max_right (u - m) (m - l); linarith
          · have := le_max_left (u - m) (m - l); linarith
        · rw [hinf hlim]; simp
      · exact a3
  · rw [clipEB_value _ hv hb h1 h2 h3]
    congr 1
    by_cases hE : EB = .nan
    · subst hE; rw [Flt.clip_nan, Flt.clip_nan]
    · obtain ⟨c1, c2, c3⟩ := Flt.clip_mem hE (by simp) t1 t2
      exact Flt.clip_id c3 (by simp) t1 c1 c2

/-- C44: a NaN estimate passes the checks; the bar is then only raised to the minimum. -/
theorem C44_nan_estimate {lower upper : Flt K} (EB : Flt K) (hv : ValidLimits lower upper)
    {b : K} (hb : 0 ≤ b) (h3 : Flt.fin (2 * b) ≤ upper.sub lower) :
    clipEB .nan EB lower upper (.fin b) = .ok (if EB = .nan then .nan else max (.fin b) EB) := by
  have e0 := (range_ok_iff lower upper).2 hv
  have e1 : ((Flt.fin 0).le (.fin b) && (Flt.fin b).lt .pinf) = true := by
    rw [Bool.and_eq_true, Flt.le_iff, Flt.lt_iff]
    refine ⟨⟨by simp, by simpa using hb⟩, by simp, ?_⟩
    rw [← not_le]; simp
  have e3 : ¬ ((upper.sub lower).lt ((Flt.fin 2).mul (.fin b)) = true) := by
    rw [Flt.mul_fin, Flt.lt_iff' (by simp), not_lt]; exact h3
  have ht : Flt.fmax (upper.sub .nan) ((Flt.nan : Flt K).sub lower) = .nan := by
    cases lower <;> cases upper <;> simp [Flt.sub, Flt.add, Flt.neg, Flt.fmax]
  unfold clipEB
  rw [pyAssert_bind, if_pos e0, pyAssert_bind, if_pos e1, if_neg, if_neg e3, ht, pyAssert_bind, if_pos]
  · rw [pure_eq_ok]; congr 1
    split_ifs with h
    · rw [h, Flt.clip_nan]
    · unfold Flt.clip
      rw [Flt.nan_lt_left]
      by_cases g : EB < .fin b
      · rw [if_pos ((Flt.lt_iff' (by simp)).2 g), max_eq_left g.le]
      · rw [if_neg (fun h => g ((Flt.lt_iff' (by simp)).1 h)), max_eq_right (not_lt.1 g)]; rfl
  · rw [Flt.nan_lt_left]; rfl
  · rw [Flt.lt_nan_right, Flt.nan_lt_left]; simp

/-- C44: an infinite estimate is inside the limits only if the limit on that side is infinite too; then no bar is too
long, and it is only raised to the minimum. -/
theorem C44_infinite_estimate {mu lower upper : Flt K} (EB : Flt K) (hv : ValidLimits lower upper)
    (hmu : mu = .pinf ∨ mu = .ninf) (h1 : lower ≤ mu) (h2 : mu ≤ upper)
    {b : K} (hb : 0 ≤ b) (h3 : Flt.fin (2 * b) ≤ upper.sub lower) :
    (mu = .pinf → upper = .pinf) ∧ (mu = .ninf → lower = .ninf) ∧
    clipEB mu EB lower upper (.fin b) = .ok (if EB = .nan then .nan else max (.fin b) EB) := by
  have ht : (mu = .pinf → upper = .pinf) ∧ (mu = .ninf → lower = .ninf) ∧
      Flt.fmax (upper.sub mu) (mu.sub lower) = .pinf := by
    obtain ⟨v1, v2, v3, v4, v5⟩ := hv
    rcases hmu with rfl | rfl <;> cases lower <;> cases upper <;>
      simp_all [Flt.sub, Flt.add, Flt.neg, Flt.fmax]
  refine ⟨ht.1, ht.2.1, ?_⟩
  rw [clipEB_value EB hv hb h1 h2 h3, ht.2.2]
  congr 1
  split_ifs with h
  · rw [h, Flt.clip_nan]
  · have hp : ∀ v : Flt K, v ≠ .nan → v ≤ .pinf := by
      intro v hv; cases v <;> simp_all
    rw [Flt.clip_eq h (by simp) (by simp)]
    by_cases g : EB < .fin b
    · rw [if_pos g, max_eq_left g.le]
    · rw [if_neg g, if_neg (not_lt.2 (hp EB h)), max_eq_right (not_lt.1 g)]

end

example : ∃ e, clipEB (K := ℚ) .pinf (.fin 2) (.fin 0) .pinf (.fin 3) = .ok e ∧ e = .fin 3 :=
  ⟨_, by decide +kernel, rfl⟩
example : clipEB (K := ℚ) (.fin (1/4)) (.fin 2) (.fin 0) (.fin 1) (.fin 0) = .ok (.fin (3/4)) := by
  decide +kernel
example : clipEB (K := ℚ) (.fin (1/4)) (.fin (1/10)) .ninf .pinf (.fin (1/5)) = .ok (.fin (1/5)) := by
  decide +kernel
example : clipEB (K := ℚ) (.fin 2) (.fin (1/10)) (.fin 0) (.fin 1) (.fin 0) = .error .valueError := by
  decide +kernel
example : ValidLimits (K := ℚ) (.fin 0) .pinf := by
  refine ⟨by simp, by simp, by simp, by simp, by simp⟩

end Mlp.Props
