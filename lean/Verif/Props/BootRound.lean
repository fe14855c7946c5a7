import Verif.Model.BootRound
import Verif.Props.Boot
import Verif.Lemmas.PerfRound
import Mathlib.Data.Rat.Floor
import Mathlib.Tactic.NormNum

/-!
# Property C107: bootstrap intervals and p-values in floating point arithmetic
-/

set_option linter.unusedSectionVars false

namespace Mlp.Props
open Mlp.Boot Mlp.BootR Mlp.PerfR Mlp.Spec Mlp.Lemmas Mlp.Round

section
variable {K : Type} [Field K] [LinearOrder K] [IsStrictOrderedRing K] [FloorRing K] {rnd : K → K}

/-- Multiples of 1/2 up to `m` are floats. -/
def HalvesExact (rnd : K → K) (m : Nat) : Prop := ∀ k : Nat, k ≤ 2 * m → rnd ((k : K) / 2) = k / 2

theorem HalvesExact.nat {m : Nat} (h : HalvesExact rnd m) {k : Nat} (hk : k ≤ m) : rnd (k : K) = k := by
  have := h (2 * k) (by omega)
  simpa using this

/-! ## The positions of the percentiles -/

section pos
variable (hr : MonoRounding rnd) {m : Nat} (hm : HalvesExact rnd m) (h100 : 100 ≤ m)
include hr hm h100

/-- The rounded half of `1 - c`. -/
def alphaR (rnd : K → K) (c : K) : K := rnd ((1 / 2) * rnd (1 - c))

theorem alphaR_bounds {c : K} (h0 : 0 < c) (h1 : c < 1) : 0 ≤ alphaR rnd c ∧ alphaR rnd c ≤ 1 / 2 := by
  have e : rnd (1 / 2 : K) = 1 / 2 := by
    have := hm 1 (by omega)
    simpa using this
  have a1 : rnd (1 - c) ≤ 1 := hr.le_one (by linarith)
  have a0 : 0 ≤ rnd (1 - c) := hr.nonneg (by linarith)
  exact ⟨hr.nonneg (by linarith), hr.le_of e (by linarith)⟩

theorem position_low {c : K} (h0 : 0 < c) (h1 : c < 1) {n : Nat} (hn : 0 < n) (hnm : n ≤ m) :
    0 ≤ positionR rnd (rnd (100 * alphaR rnd c)) n ∧
      positionR rnd (rnd (100 * alphaR rnd c)) n ≤ ((n - 1 : Nat) : K) / 2 := by
  obtain ⟨a0, a1⟩ := alphaR_bounds hr hm h100 h0 h1
  have e50 : rnd (50 : K) = 50 := by
    have := hm.nat (show 50 ≤ m by omega)
    simpa using this
  have e2 : rnd (1 / 2 : K) = 1 / 2 := by
    have := hm 1 (by omega)
    simpa using this
  have b0 : 0 ≤ rnd (100 * alphaR rnd c) := hr.nonneg (by positivity)
  have b1 : rnd (100 * alphaR rnd c) ≤ 50 := hr.le_of e50 (by linarith)
  have c0 : 0 ≤ rnd (rnd (100 * alphaR rnd c) / 100) := hr.nonneg (by positivity)
  have c1 : rnd (rnd (100 * alphaR rnd c) / 100) ≤ 1 / 2 := hr.le_of e2 (by linarith)
  have hn1 : ((n : K) - 1) = ((n - 1 : Nat) : K) := by
    rw [Nat.cast_sub hn]; simp
  have hnn : (0 : K) ≤ ((n - 1 : Nat) : K) := Nat.cast_nonneg _
  unfold positionR
  rw [hn1]
  refine ⟨hr.nonneg (by positivity), hr.le_of (hm _ (by omega)) ?_⟩
  exact (mul_le_mul_of_nonneg_right c1 hnn).trans (by linarith)

theorem position_high {c : K} (h0 : 0 < c) (h1 : c < 1) {n : Nat} (hn : 0 < n) (hnm : n ≤ m) :
    ((n - 1 : Nat) : K) / 2 ≤ positionR rnd (rnd (100 * rnd (1 - alphaR rnd c))) n ∧
      positionR rnd (rnd (100 * rnd (1 - alphaR rnd c))) n ≤ ((n - 1 : Nat) : K) := by
  obtain ⟨a0, a1⟩ := alphaR_bounds hr hm h100 h0 h1
  have e50 : rnd (50 : K) = 50 := by
    have := hm.nat (show 50 ≤ m by omega)
    simpa using this
  have e100 : rnd (100 : K) = 100 := by
    have := hm.nat (show 100 ≤ m by omega)
    simpa using this
  have e2 : rnd (1 / 2 : K) = 1 / 2 := by
    have := hm 1 (by omega)
    simpa using this
  have t0 : 1 / 2 ≤ rnd (1 - alphaR rnd c) := hr.ge_of e2 (by linarith)
  have t1 : rnd (1 - alphaR rnd c) ≤ 1 := hr.le_one (by linarith)
  have b0 : 50 ≤ rnd (100 * rnd (1 - alphaR rnd c)) := hr.ge_of e50 (by linarith)
  have b1 : rnd (100 * rnd (1 - alphaR rnd c)) ≤ 100 := hr.le_of e100 (by linarith)
  have c0 : 1 / 2 ≤ rnd (rnd (100 * rnd (1 - alphaR rnd c)) / 100) := hr.ge_of e2 (by linarith)
  have c1 : rnd (rnd (100 * rnd (1 - alphaR rnd c)) / 100) ≤ 1 := hr.le_one (by linarith)
  have hn1 : ((n : K) - 1) = ((n - 1 : Nat) : K) := by
    rw [Nat.cast_sub hn]; simp
  have hnn : (0 : K) ≤ ((n - 1 : Nat) : K) := Nat.cast_nonneg _
  unfold positionR
  rw [hn1]
  refine ⟨hr.ge_of (hm _ (by omega)) ?_, hr.le_of (hm.nat (by omega)) ?_⟩
  · rw [div_eq_inv_mul]
    refine mul_le_mul_of_nonneg_right ?_ hnn
    linarith [c0]
  · nlinarith

/-- The positions that the code computes. -/
def lowR (rnd : K → K) (c : K) (n : Nat) : Nat := ⌊positionR rnd (rnd (100 * alphaR rnd c)) n⌋.toNat

/-- The positions that the code computes. -/
def highR (rnd : K → K) (c : K) (n : Nat) : Nat := ⌈positionR rnd (rnd (100 * rnd (1 - alphaR rnd c))) n⌉.toNat

theorem lowR_facts {c : K} (h0 : 0 < c) (h1 : c < 1) {n : Nat} (hn : 0 < n) (hnm : n ≤ m) :
    2 * lowR rnd c n ≤ n - 1 ∧ ((lowR rnd c n : Nat) : K) ≤ positionR rnd (rnd (100 * alphaR rnd c)) n ∧
      positionR rnd (rnd (100 * alphaR rnd c)) n < (lowR rnd c n : Nat) + 1 := by
  obtain ⟨p0, p1⟩ := position_low hr hm h100 h0 h1 hn hnm
  have hf : ((lowR rnd c n : Nat) : Int) = ⌊positionR rnd (rnd (100 * alphaR rnd c)) n⌋ := by
    unfold lowR
    have := Int.floor_nonneg.2 p0
    omega
  have hle : ((lowR rnd c n : Nat) : K) ≤ positionR rnd (rnd (100 * alphaR rnd c)) n := by
    have := Int.floor_le (positionR rnd (rnd (100 * alphaR rnd c)) n)
    rw [← hf] at this
    exact_mod_cast this
  refine ⟨?_, hle, ?_⟩
  · have : ((2 * lowR rnd c n : Nat) : K) ≤ ((n - 1 : Nat) : K) := by
      rw [Nat.cast_mul, Nat.cast_two]
      linarith
    exact_mod_cast this
  · have := Int.lt_floor_add_one (positionR rnd (rnd (100 * alphaR rnd c)) n)
    rw [← hf] at this
    exact_mod_cast this

theorem highR_facts {c : K} (h0 : 0 < c) (h1 : c < 1) {n : Nat} (hn : 0 < n) (hnm : n ≤ m) :
    n - 1 ≤ 2 * highR rnd c n ∧ highR rnd c n ≤ n - 1 ∧
      positionR rnd (rnd (100 * rnd (1 - alphaR rnd c))) n ≤ (highR rnd c n : Nat) ∧
      ((highR rnd c n : Nat) : K) < positionR rnd (rnd (100 * rnd (1 - alphaR rnd c))) n + 1 := by
  obtain ⟨p0, p1⟩ := position_high hr hm h100 h0 h1 hn hnm
  have hpn : 0 ≤ positionR rnd (rnd (100 * rnd (1 - alphaR rnd c))) n := le_trans (by positivity) p0
  have hf : ((highR rnd c n : Nat) : Int) = ⌈positionR rnd (rnd (100 * rnd (1 - alphaR rnd c))) n⌉ := by
    unfold highR
    have := Int.ceil_nonneg hpn
    omega
  have hle : positionR rnd (rnd (100 * rnd (1 - alphaR rnd c))) n ≤ (highR rnd c n : Nat) := by
    have := Int.le_ceil (positionR rnd (rnd (100 * rnd (1 - alphaR rnd c))) n)
    rw [← hf] at this
    exact_mod_cast this
  refine ⟨?_, ?_, hle, ?_⟩
  · have : ((n - 1 : Nat) : K) ≤ ((2 * highR rnd c n : Nat) : K) := by
      rw [Nat.cast_mul, Nat.cast_two]
      linarith
    exact_mod_cast this
  · have : ⌈positionR rnd (rnd (100 * rnd (1 - alphaR rnd c))) n⌉ ≤ ((n - 1 : Nat) : Int) := by
      rw [Int.ceil_le]
      exact_mod_cast p1
    rw [← hf] at this
    exact_mod_cast this
  · have := Int.ceil_lt_add_one (positionR rnd (rnd (100 * rnd (1 - alphaR rnd c))) n)
    rw [← hf] at this
    exact_mod_cast this

/-- What `percentile` returns in floating point arithmetic. -/
theorem percentileR_ok {boot : List (Flt K)} (hne : boot ≠ []) (hnm : boot.length ≤ m) (hnan : NoNaN boot) {c : K}
    (h0 : 0 < c) (h1 : c < 1) :
    ∃ LB UB, percentileR rnd boot (.fin c) = .ok (LB, UB) ∧ IsOrderStat boot (lowR rnd c boot.length) LB ∧
      IsOrderStat boot (highR rnd c boot.length) UB := by
  have hn : 0 < boot.length := List.length_pos_iff.2 hne
  obtain ⟨l1, -, -⟩ := lowR_facts hr hm h100 h0 h1 hn hnm
  obtain ⟨-, h2, -, -⟩ := highR_facts hr hm h100 h0 h1 hn hnm
  obtain ⟨LB, hLB, sLB⟩ := sorted_get_orderStat boot (k := lowR rnd c boot.length) (by omega)
  obtain ⟨UB, hUB, sUB⟩ := sorted_get_orderStat boot (k := highR rnd c boot.length) (by omega)
  refine ⟨LB, UB, ?_, sLB, sUB⟩
  unfold lowR at hLB
  unfold highR at hUB
  simp only [percentileR, confidenceToPercentilesR, any_isNaN.2 hnan, pyAssert_bind, Bool.not_false, if_true,
    h0, h1, decide_true, Bool.and_self, pure_eq_ok, ok_bind, percentileLowerR, percentileHigherR]
  unfold alphaR at hLB hUB
  rw [hLB, hUB]
  rfl

end pos

/-- **C107, the interval.**  For every sample without NaN and every confidence level between 0 and 1, the
percentile interval computed in floating point arithmetic exists, its ends are entries of the sample, the
lower end is the entry at some position in the lower half (the middle included), the upper end at some position
in the upper half, so that the interval is not empty. -/
theorem C107_interval (hr : MonoRounding rnd) {m : Nat} (hm : HalvesExact rnd m) (h100 : 100 ≤ m)
    {boot : List (Flt K)} (hne : boot ≠ []) (hnm : boot.length ≤ m) (hnan : NoNaN boot) {c : K} (h0 : 0 < c)
    (h1 : c < 1) :
    ∃ LB UB, ∃ i j : Nat, percentileR rnd boot (.fin c) = .ok (LB, UB) ∧ IsOrderStat boot i LB ∧
      IsOrderStat boot j UB ∧ 2 * i ≤ boot.length - 1 ∧ boot.length - 1 ≤ 2 * j ∧ j ≤ boot.length - 1 ∧
      LB ≤ UB := by
  have hn : 0 < boot.length := List.length_pos_iff.2 hne
  obtain ⟨l1, -, -⟩ := lowR_facts hr hm h100 h0 h1 hn hnm
  obtain ⟨h2, h3, -, -⟩ := highR_facts hr hm h100 h0 h1 hn hnm
  obtain ⟨LB, UB, e, s1, s2⟩ := percentileR_ok hr hm h100 hne hnm hnan h0 h1
  exact ⟨LB, UB, _, _, e, s1, s2, l1, h2, h3, s1.mono (by omega) s2⟩

/-- **C107, nesting.**  A higher confidence level gives an interval that contains the one of the lower level. -/
theorem C107_nested (hr : MonoRounding rnd) {m : Nat} (hm : HalvesExact rnd m) (h100 : 100 ≤ m)
    {boot : List (Flt K)} (hne : boot ≠ []) (hnm : boot.length ≤ m) {c₁ c₂ : K} (hc : c₁ ≤ c₂)
    {L₁ U₁ L₂ U₂ : Flt K} (e₁ : percentileR rnd boot (.fin c₁) = .ok (L₁, U₁))
    (e₂ : percentileR rnd boot (.fin c₂) = .ok (L₂, U₂)) : L₂ ≤ L₁ ∧ U₁ ≤ U₂ := by
  have hn : 0 < boot.length := List.length_pos_iff.2 hne
  have hnan : NoNaN boot := by
    by_contra hcon
    rw [← any_isNaN, Bool.not_eq_false] at hcon
    simp [percentileR, hcon, pyAssert_bind] at e₁
  have hb : ∀ {c : K} {p : Flt K × Flt K}, percentileR rnd boot (.fin c) = .ok p → 0 < c ∧ c < 1 := by
    intro c p e
    by_contra hcon
    have : (decide (0 < c) && decide (c < 1)) = false := by
      rw [← Bool.not_eq_true, Bool.and_eq_true, decide_eq_true_eq, decide_eq_true_eq]
      exact hcon
    simp only [percentileR, confidenceToPercentilesR, any_isNaN.2 hnan, pyAssert_bind, this, Bool.not_false, if_true,
      Bool.false_eq_true, if_false, error_bind] at e
    cases e
  obtain ⟨p1, p2⟩ := hb e₁
  obtain ⟨q1, q2⟩ := hb e₂
  obtain ⟨LB, UB, f1, s1, s2⟩ := percentileR_ok hr hm h100 hne hnm hnan p1 p2
  obtain ⟨LB', UB', f2, t1, t2⟩ := percentileR_ok hr hm h100 hne hnm hnan q1 q2
  rw [f1, Except.ok.injEq, Prod.mk.injEq] at e₁
  rw [f2, Except.ok.injEq, Prod.mk.injEq] at e₂
  obtain ⟨rfl, rfl⟩ := e₁
  obtain ⟨rfl, rfl⟩ := e₂
  have ha : alphaR rnd c₂ ≤ alphaR rnd c₁ := by
    unfold alphaR
    refine hr.mono ?_
    have := hr.mono (show 1 - c₂ ≤ 1 - c₁ by linarith)
    linarith
  have hnn : (0 : K) ≤ (boot.length : K) - 1 := by
    have : (1 : K) ≤ boot.length := by exact_mod_cast hn
    linarith
  refine ⟨t1.mono ?_ s1, s2.mono ?_ t2⟩
  · unfold lowR
    refine Int.toNat_le_toNat (Int.floor_le_floor ?_)
    unfold positionR
    exact hr.mono (mul_le_mul_of_nonneg_right (hr.mono (div_le_div_of_nonneg_right
      (hr.mono (by linarith)) (by norm_num))) hnn)
  · unfold highR
    refine Int.toNat_le_toNat (Int.ceil_le_ceil ?_)
    unfold positionR
    have := hr.mono (show 1 - alphaR rnd c₁ ≤ 1 - alphaR rnd c₂ by linarith)
    exact hr.mono (mul_le_mul_of_nonneg_right (hr.mono (div_le_div_of_nonneg_right
      (hr.mono (by linarith)) (by norm_num))) hnn)

/-! ## Error bars -/

theorem rF_nan {v : Flt K} : rF rnd v = .nan ↔ v = .nan := by cases v <;> simp [rF]

/-- **C107, the error bar.**  `error_bar` never fails where `percentile` succeeds: its assertions hold in
floating point arithmetic too.  For a finite estimate it is a number or infinite, at least 0. -/
theorem C107_error_bar (hr : MonoRounding rnd) {m : Nat} (hm : HalvesExact rnd m) (h100 : 100 ≤ m)
    {boot : List (Flt K)} (hne : boot ≠ []) (hnm : boot.length ≤ m) (hnan : NoNaN boot) {c : K} (h0 : 0 < c)
    (h1 : c < 1) (orig : Flt K) :
    ∃ LB UB, percentileR rnd boot (.fin c) = .ok (LB, UB) ∧
      errorBarR rnd boot orig (.fin c) = .ok (Flt.fmax (rF rnd (UB.sub orig)) (rF rnd (orig.sub LB))) ∧
      ∀ x, orig = .fin x → Flt.fin 0 ≤ Flt.fmax (rF rnd (UB.sub orig)) (rF rnd (orig.sub LB)) ∧
        Flt.fmax (rF rnd (UB.sub orig)) (rF rnd (orig.sub LB)) ≠ .nan := by
  obtain ⟨LB, UB, i, j, e, s1, s2, -, -, -, hle⟩ := C107_interval hr hm h100 hne hnm hnan h0 h1
  refine ⟨LB, UB, e, ?_⟩
  have n1 : LB ≠ .nan := fun e => hnan (e ▸ s1.1)
  have n2 : UB ≠ .nan := fun e => hnan (e ▸ s2.1)
  have key : (Flt.fmax (rF rnd (UB.sub orig)) (rF rnd (orig.sub LB))).lt (.fin 0) = false ∧
      (orig.isFinite = true → (Flt.fmax (rF rnd (UB.sub orig)) (rF rnd (orig.sub LB))).isNaN = false) ∧
      (∀ x, orig = .fin x → Flt.fin 0 ≤ Flt.fmax (rF rnd (UB.sub orig)) (rF rnd (orig.sub LB))) := by
    by_cases hfin : ∃ l u x, LB = .fin l ∧ UB = .fin u ∧ orig = .fin x
    · obtain ⟨l, u, x, rfl, rfl, rfl⟩ := hfin
      rw [Flt.fin_le_fin] at hle
      have : 0 ≤ max (rnd (u - x)) (rnd (x - l)) := by
        rcases le_total x u with h | h
        · exact le_max_of_le_left (hr.nonneg (by linarith))
        · exact le_max_of_le_right (hr.nonneg (by linarith))
      simp only [Flt.sub_fin, rF, Flt.fmax_fin]
      simp [not_lt.2 this, this]
    · cases LB <;> cases UB <;> cases orig <;>
        simp_all [Flt.fmax, Flt.sub, Flt.add, Flt.neg, Flt.lt, Flt.isFinite, Flt.isNaN, rF]
  constructor
  · unfold errorBarR
    rw [e, ok_bind]
    simp only [pyAssert_bind, key.1, Bool.not_false, if_true, pure_eq_ok]
    rw [if_pos]
    cases ho : orig.isFinite
    · rfl
    · simp [key.2.1 ho]
  · intro x hx
    refine ⟨key.2.2 x hx, ?_⟩
    have := key.2.1 (by rw [hx]; rfl)
    rwa [Flt.isNaN_false] at this

/-- **C107, the basic interval.**  For a finite sample and estimate it is the percentile interval reflected in
the estimate, each operation rounded; it is not empty. -/
theorem C107_basic (hr : MonoRounding rnd) {m : Nat} (hm : HalvesExact rnd m) (h100 : 100 ≤ m)
    {xs : List K} (hne : xs ≠ []) (hnm : xs.length ≤ m) {c : K} (h0 : 0 < c) (h1 : c < 1) (x : K) :
    ∃ l u : K, l ∈ xs ∧ u ∈ xs ∧ percentileR rnd (finVec xs) (.fin c) = .ok (.fin l, .fin u) ∧
      basicR rnd (finVec xs) (.fin x) (.fin c) = .ok (.fin (rnd (rnd (2 * x) - u)), .fin (rnd (rnd (2 * x) - l))) ∧
      rnd (rnd (2 * x) - u) ≤ rnd (rnd (2 * x) - l) := by
  have hne' : finVec xs ≠ [] := by simpa [finVec] using hne
  have hnan : NoNaN (finVec xs) := by simp [NoNaN, finVec]
  obtain ⟨LB, UB, i, j, e, s1, s2, -, -, -, hle⟩ :=
    C107_interval hr hm h100 hne' (by simpa [finVec] using hnm) hnan h0 h1
  obtain ⟨l, hl, rfl⟩ := List.mem_map.1 s1.1
  obtain ⟨u, hu, rfl⟩ := List.mem_map.1 s2.1
  rw [Flt.fin_le_fin] at hle
  refine ⟨l, u, hl, hu, e, ?_, hr.mono (by linarith)⟩
  unfold basicR
  rw [e, ok_bind]
  simp [pure_eq_ok, rF]

/-! ## p-values -/

/-- **C107, paired p-values.**  The same against a paired sample. -/
theorem C107_paired (hr : MonoRounding rnd) {boot r : List (Flt K)} (hne : boot ≠ []) (hlen : r.length = boot.length)
    (hb : NoNaN boot) (hn : NoNaN r) :
    ∃ p : K, significanceR rnd boot (.paired r) = .ok (.fin p) ∧ 0 ≤ p ∧ p ≤ 1 ∧
      p = min 1 (rnd (2 * rnd (min (((boot.zip r).countP fun q => decide (q.1 ≤ q.2) : Nat) : K)
        ((boot.zip r).countP fun q => decide (q.2 ≤ q.1) : Nat) / (boot.length : K)))) := by
  have hl : (boot.length : K) ≠ 0 := by
    have : 0 < boot.length := List.length_pos_iff.2 hne
    exact_mod_cast this.ne'
  have hl' : (0 : K) < boot.length := lt_of_le_of_ne (Nat.cast_nonneg _) hl.symm
  refine ⟨_, ?_, ?_, min_le_left _ _, rfl⟩
  · simp only [significanceR, Ref.broadcast, hlen, any_isNaN.2 hb, any_isNaN.2 hn, pyAssert_bind, Bool.not_false, if_true]
    unfold meanBoolR
    rw [count_zipWith_le hn, count_zipWith_le hb, List.length_zipWith, List.length_zipWith,
      hlen, Nat.min_self, Flt.div_fin hl, Flt.div_fin hl]
    simp only [rF, Flt.minimum_fin, Flt.mul_fin, pure_eq_ok]
    rw [← hr.mono.map_min, min_div_div_right hl'.le]
    unfold countLe
    rw [← List.zip_swap boot r, List.countP_map]
    rfl
  · refine le_min zero_le_one (hr.nonneg (mul_nonneg (by norm_num) (hr.nonneg ?_)))
    have : (0 : K) ≤ min (((boot.zip r).countP fun q => decide (q.1 ≤ q.2) : Nat) : K)
        ((boot.zip r).countP fun q => decide (q.2 ≤ q.1) : Nat) := le_min (Nat.cast_nonneg _) (Nat.cast_nonneg _)
    positivity

/-- **C107, p-values.**  In floating point arithmetic the p-value against a number is twice the smaller of the
two shares, each operation rounded, at most 1; it lies between 0 and 1. -/
theorem C107_pvalue (hr : MonoRounding rnd) {boot : List (Flt K)} (hne : boot ≠ []) (hb : NoNaN boot) {r : Flt K}
    (hn : r ≠ .nan) :
    ∃ p : K, significanceR rnd boot (.scalar r) = .ok (.fin p) ∧ 0 ≤ p ∧ p ≤ 1 ∧
      p = min 1 (rnd (2 * rnd (min ((boot.countP fun v => decide (v ≤ r) : Nat) : K)
        (boot.countP fun v => decide (r ≤ v) : Nat) / (boot.length : K)))) := by
  have hl : (boot.length : K) ≠ 0 := by
    have : 0 < boot.length := List.length_pos_iff.2 hne
    exact_mod_cast this.ne'
  have hl' : (0 : K) < boot.length := lt_of_le_of_ne (Nat.cast_nonneg _) hl.symm
  refine ⟨_, ?_, ?_, min_le_left _ _, rfl⟩
  · have hrn : r.isNaN = false := by rw [Flt.isNaN_false]; exact hn
    simp only [significanceR, Ref.broadcast, any_isNaN.2 hb, hrn, pyAssert_bind, Bool.not_false, if_true]
    unfold meanBoolR
    rw [count_zipWith_le (noNaN_replicate hn), count_zipWith_le hb, List.length_zipWith, List.length_zipWith,
      List.length_replicate, Nat.min_self, Flt.div_fin hl, Flt.div_fin hl, countLe_replicate_right,
      countLe_replicate_left]
    simp only [rF, Flt.minimum_fin, Flt.mul_fin, pure_eq_ok]
    rw [← hr.mono.map_min, min_div_div_right hl'.le]
  · refine le_min zero_le_one (hr.nonneg (mul_nonneg (by norm_num) (hr.nonneg ?_)))
    have : (0 : K) ≤ min ((boot.countP fun v => decide (v ≤ r) : Nat) : K)
        (boot.countP fun v => decide (r ≤ v) : Nat) := le_min (Nat.cast_nonneg _) (Nat.cast_nonneg _)
    positivity

theorem rel_bounds {u : K} (he : RelError u rnd) {x : K} (hx : 0 ≤ x) :
    (1 - u) * x ≤ rnd x ∧ rnd x ≤ (1 + u) * x := by
  have := he x
  rw [abs_of_nonneg hx, abs_le] at this
  constructor <;> linarith [this.1, this.2]

theorem pow_four_le {u : K} (hu : 0 ≤ u) (hu1 : u ≤ 1 / 25) : (1 + u) ^ 4 ≤ 1 + (17 / 4) * u := by
  have h2 : (1 + u) ^ 2 ≤ 1 + (51 / 25) * u := by nlinarith
  have : (1 + u) ^ 4 = (1 + u) ^ 2 * (1 + u) ^ 2 := by ring
  rw [this]
  calc (1 + u) ^ 2 * (1 + u) ^ 2 ≤ (1 + (51 / 25) * u) * (1 + (51 / 25) * u) :=
        mul_le_mul h2 h2 (by positivity) (by positivity)
    _ ≤ 1 + (17 / 4) * u := by nlinarith

theorem pow_five_le {u : K} (hu : 0 ≤ u) (hu1 : u ≤ 1 / 25) : (1 + u) ^ 5 ≤ 1 + 6 * u := by
  have : (1 + u) ^ 5 = (1 + u) ^ 4 * (1 + u) := by ring
  rw [this]
  calc (1 + u) ^ 4 * (1 + u) ≤ (1 + (17 / 4) * u) * (1 + u) :=
        mul_le_mul_of_nonneg_right (pow_four_le hu hu1) (by positivity)
    _ ≤ 1 + 6 * u := by nlinarith

theorem share_low {u x α : K} (hu : 0 ≤ u) (hu1 : u ≤ 1 / 25) (x0 : 0 ≤ x) (h : α ≤ (1 + 3 * u) * x) :
    1 - x - 6 * u ≤ (1 - 4 * u) * (1 - α) := by
  have h1 : (1 - 4 * u) * (1 - (1 + 3 * u) * x) ≤ (1 - 4 * u) * (1 - α) :=
    mul_le_mul_of_nonneg_left (by linarith) (by linarith)
  have h2 : 0 ≤ u * x := by positivity
  have h3 : 0 ≤ u * u * x := by positivity
  nlinarith

theorem share_high {u x α : K} (hu : 0 ≤ u) (hu1 : u ≤ 1 / 25) (x0 : 0 ≤ x) (h : (1 - 2 * u) * x ≤ α) :
    (1 + 5 * u) * (1 - α) ≤ 1 - x + 6 * u := by
  have h1 : (1 + 5 * u) * (1 - α) ≤ (1 + 5 * u) * (1 - (1 - 2 * u) * x) :=
    mul_le_mul_of_nonneg_left (by linarith) (by linarith)
  have h2 : 0 ≤ u * x := by positivity
  have h3 : u * (u * x) ≤ 1 / 25 * (u * x) := mul_le_mul_of_nonneg_right hu1 h2
  nlinarith

theorem pow_ge {u : K} (hu1 : u ≤ 1 / 25) (k : Nat) : 1 - k * u ≤ (1 - u) ^ k := by
  have := one_add_mul_le_pow (show (-2 : K) ≤ -u by linarith) k
  have e : 1 + -u = 1 - u := by ring
  rw [e] at this
  linarith

/-- The computed positions are close to the exact ones. -/
theorem positions_close (hr : FloatRounding rnd) {m : Nat} (hm : HalvesExact rnd m) (h100 : 100 ≤ m) {u : K}
    (hu : 0 ≤ u) (hu1 : u ≤ 1 / 25) (he : RelError u rnd) {c : K} (h0 : 0 < c) (h1 : c < 1) {n : Nat} (hn : 0 < n) :
    |positionR rnd (rnd (100 * alphaR rnd c)) n - (1 - c) / 2 * ((n : K) - 1)| ≤ 6 * u * ((n : K) - 1) ∧
    |positionR rnd (rnd (100 * rnd (1 - alphaR rnd c))) n - (1 - (1 - c) / 2) * ((n : K) - 1)| ≤
      6 * u * ((n : K) - 1) := by
  have hn1 : (1 : K) ≤ n := by exact_mod_cast hn
  have hn0 : (0 : K) ≤ (n : K) - 1 := by linarith
  have hu' : 0 ≤ 1 - u := by linarith
  obtain ⟨al0, al1⟩ := alphaR_bounds hr hm h100 h0 h1
  have d0 : 0 ≤ 1 - c := by linarith
  obtain ⟨a1, a2⟩ := rel_bounds he d0
  have a0 : 0 ≤ rnd (1 - c) := hr.nonneg d0
  obtain ⟨α1, α2⟩ := rel_bounds he (show 0 ≤ 1 / 2 * rnd (1 - c) by linarith)
  have hαu : alphaR rnd c ≤ (1 + u) ^ 2 * ((1 - c) / 2) :=
    calc alphaR rnd c ≤ (1 + u) * (1 / 2 * rnd (1 - c)) := α2
      _ ≤ (1 + u) * (1 / 2 * ((1 + u) * (1 - c))) := by gcongr
      _ = _ := by ring
  have hαl : (1 - u) ^ 2 * ((1 - c) / 2) ≤ alphaR rnd c :=
    calc (1 - u) ^ 2 * ((1 - c) / 2) = (1 - u) * (1 / 2 * ((1 - u) * (1 - c))) := by ring
      _ ≤ (1 - u) * (1 / 2 * rnd (1 - c)) := by gcongr
      _ ≤ alphaR rnd c := α1
  -- a chain of three roundings
  have chain : ∀ t : K, 0 ≤ t → (1 - u) ^ 3 * t * ((n : K) - 1) ≤ positionR rnd (rnd (100 * t)) n ∧
      positionR rnd (rnd (100 * t)) n ≤ (1 + u) ^ 3 * t * ((n : K) - 1) := by
    intro t ht
    unfold positionR
    obtain ⟨b1, b2⟩ := rel_bounds he (show 0 ≤ 100 * t by positivity)
    have b0 : 0 ≤ rnd (100 * t) := hr.nonneg (by positivity)
    obtain ⟨b3, b4⟩ := rel_bounds he (show 0 ≤ rnd (100 * t) / 100 by positivity)
    have b5 : 0 ≤ rnd (rnd (100 * t) / 100) := hr.nonneg (by positivity)
    obtain ⟨b6, b7⟩ := rel_bounds he (mul_nonneg b5 hn0)
    constructor
    · calc (1 - u) ^ 3 * t * ((n : K) - 1) = (1 - u) * ((1 - u) * ((1 - u) * (100 * t) / 100) * ((n : K) - 1)) := by ring
        _ ≤ (1 - u) * ((1 - u) * (rnd (100 * t) / 100) * ((n : K) - 1)) := by gcongr
        _ ≤ (1 - u) * (rnd (rnd (100 * t) / 100) * ((n : K) - 1)) := by gcongr
        _ ≤ _ := b6
    · calc rnd (rnd (rnd (100 * t) / 100) * ((n : K) - 1)) ≤
            (1 + u) * (rnd (rnd (100 * t) / 100) * ((n : K) - 1)) := b7
        _ ≤ (1 + u) * ((1 + u) * (rnd (100 * t) / 100) * ((n : K) - 1)) := by gcongr
        _ ≤ (1 + u) * ((1 + u) * ((1 + u) * (100 * t) / 100) * ((n : K) - 1)) := by gcongr
        _ = _ := by ring
  have p5 := pow_five_le hu hu1
  have g5 : 1 - 5 * u ≤ (1 - u) ^ 5 := by exact_mod_cast pow_ge hu1 5
  have x0 : 0 ≤ (1 - c) / 2 := by linarith
  have x1 : (1 - c) / 2 ≤ 1 := by linarith
  constructor
  · obtain ⟨c1, c2⟩ := chain (alphaR rnd c) al0
    rw [abs_le]
    constructor
    · have : (1 - 5 * u) * ((1 - c) / 2) * ((n : K) - 1) ≤ positionR rnd (rnd (100 * alphaR rnd c)) n :=
        calc (1 - 5 * u) * ((1 - c) / 2) * ((n : K) - 1) ≤ (1 - u) ^ 5 * ((1 - c) / 2) * ((n : K) - 1) := by gcongr
          _ = (1 - u) ^ 3 * ((1 - u) ^ 2 * ((1 - c) / 2)) * ((n : K) - 1) := by ring
          _ ≤ (1 - u) ^ 3 * alphaR rnd c * ((n : K) - 1) := by gcongr
          _ ≤ _ := c1
      have h5 : 5 * u * ((1 - c) / 2) * ((n : K) - 1) ≤ 5 * u * 1 * ((n : K) - 1) := by gcongr
      have h6 : 0 ≤ u * ((n : K) - 1) := by positivity
      linarith
    · have : positionR rnd (rnd (100 * alphaR rnd c)) n ≤ (1 + 6 * u) * ((1 - c) / 2) * ((n : K) - 1) :=
        calc positionR rnd (rnd (100 * alphaR rnd c)) n ≤ (1 + u) ^ 3 * alphaR rnd c * ((n : K) - 1) := c2
          _ ≤ (1 + u) ^ 3 * ((1 + u) ^ 2 * ((1 - c) / 2)) * ((n : K) - 1) := by gcongr
          _ = (1 + u) ^ 5 * ((1 - c) / 2) * ((n : K) - 1) := by ring
          _ ≤ _ := by gcongr
      have h5 : 6 * u * ((1 - c) / 2) * ((n : K) - 1) ≤ 6 * u * 1 * ((n : K) - 1) := by gcongr
      linarith
  · obtain ⟨t1, t2⟩ := rel_bounds he (show 0 ≤ 1 - alphaR rnd c by linarith)
    have t0 : 0 ≤ rnd (1 - alphaR rnd c) := hr.nonneg (by linarith)
    obtain ⟨c1, c2⟩ := chain (rnd (1 - alphaR rnd c)) t0
    have g4 : 1 - 4 * u ≤ (1 - u) ^ 4 := by exact_mod_cast pow_ge hu1 4
    have g2 : 1 - 2 * u ≤ (1 - u) ^ 2 := by exact_mod_cast pow_ge hu1 2
    have p4 : (1 + u) ^ 4 ≤ 1 + 5 * u := (pow_four_le hu hu1).trans (by linarith)
    have p2 : (1 + u) ^ 2 ≤ 1 + 3 * u := by nlinarith
    have h8 : 0 ≤ 1 - alphaR rnd c := by linarith
    rw [abs_le]
    constructor
    · have h7 : 1 - (1 - c) / 2 - 6 * u ≤ (1 - 4 * u) * (1 - alphaR rnd c) :=
        share_low hu hu1 x0 (hαu.trans (mul_le_mul_of_nonneg_right p2 x0))
      have : (1 - (1 - c) / 2 - 6 * u) * ((n : K) - 1) ≤ positionR rnd (rnd (100 * rnd (1 - alphaR rnd c))) n :=
        calc (1 - (1 - c) / 2 - 6 * u) * ((n : K) - 1) ≤ (1 - 4 * u) * (1 - alphaR rnd c) * ((n : K) - 1) := by gcongr
          _ ≤ (1 - u) ^ 4 * (1 - alphaR rnd c) * ((n : K) - 1) := by gcongr
          _ = (1 - u) ^ 3 * ((1 - u) * (1 - alphaR rnd c)) * ((n : K) - 1) := by ring
          _ ≤ (1 - u) ^ 3 * rnd (1 - alphaR rnd c) * ((n : K) - 1) := by gcongr
          _ ≤ _ := c1
      linarith
    · have h7 : (1 + 5 * u) * (1 - alphaR rnd c) ≤ 1 - (1 - c) / 2 + 6 * u :=
        share_high hu hu1 x0 (le_trans (mul_le_mul_of_nonneg_right g2 x0) hαl)
      have : positionR rnd (rnd (100 * rnd (1 - alphaR rnd c))) n ≤ (1 - (1 - c) / 2 + 6 * u) * ((n : K) - 1) :=
        calc positionR rnd (rnd (100 * rnd (1 - alphaR rnd c))) n ≤
              (1 + u) ^ 3 * rnd (1 - alphaR rnd c) * ((n : K) - 1) := c2
          _ ≤ (1 + u) ^ 3 * ((1 + u) * (1 - alphaR rnd c)) * ((n : K) - 1) := by gcongr
          _ = (1 + u) ^ 4 * (1 - alphaR rnd c) * ((n : K) - 1) := by ring
          _ ≤ (1 + 5 * u) * (1 - alphaR rnd c) * ((n : K) - 1) := by gcongr
          _ ≤ _ := by gcongr
      linarith

/-- **C107, positions.**  The ends of the computed interval are the entries at positions that differ from the exact
positions `(1-c)/2 (n-1)` and `(1+c)/2 (n-1)`, rounded down and up, by at most `6 u (n-1)` before that. -/
theorem C107_positions (hr : FloatRounding rnd) {m : Nat} (hm : HalvesExact rnd m) (h100 : 100 ≤ m) {u : K}
    (hu : 0 ≤ u) (hu1 : u ≤ 1 / 25) (he : RelError u rnd) {boot : List (Flt K)} (hne : boot ≠ [])
    (hnm : boot.length ≤ m) (hnan : NoNaN boot) {c : K} (h0 : 0 < c) (h1 : c < 1) :
    ∃ LB UB, ∃ x y : K, percentileR rnd boot (.fin c) = .ok (LB, UB) ∧
      IsOrderStat boot ⌊x⌋.toNat LB ∧ IsOrderStat boot ⌈y⌉.toNat UB ∧
      |x - (1 - c) / 2 * ((boot.length : K) - 1)| ≤ 6 * u * ((boot.length : K) - 1) ∧
      |y - (1 + c) / 2 * ((boot.length : K) - 1)| ≤ 6 * u * ((boot.length : K) - 1) := by
  obtain ⟨LB, UB, e, s1, s2⟩ := percentileR_ok hr hm h100 hne hnm hnan h0 h1
  obtain ⟨d1, d2⟩ := positions_close hr hm h100 hu hu1 he h0 h1 (List.length_pos_iff.2 hne)
  refine ⟨LB, UB, _, _, e, s1, s2, d1, ?_⟩
  rwa [show (1 + c) / 2 = 1 - (1 - c) / 2 by ring]

/-- **C107, the same interval.**  If the exact position `(1-c)/2 (n-1)` of the lower percentile is not within
`6 u (n-1)` of the integers around it, the interval computed in floating point arithmetic is exactly the one
of exact arithmetic (C38). -/
theorem C107_exact (hr : FloatRounding rnd) {m : Nat} (hm : HalvesExact rnd m) (h100 : 100 ≤ m) {u : K}
    (hu : 0 ≤ u) (hu1 : u ≤ 1 / 25) (he : RelError u rnd) {boot : List (Flt K)} (hne : boot ≠ [])
    (hnm : boot.length ≤ m) (hnan : NoNaN boot) {c : K} (h0 : 0 < c) (h1 : c < 1) {k : Nat}
    (hk1 : (k : K) + 6 * u * ((boot.length : K) - 1) ≤ (1 - c) / 2 * ((boot.length : K) - 1))
    (hk2 : (1 - c) / 2 * ((boot.length : K) - 1) + 6 * u * ((boot.length : K) - 1) < k + 1) :
    percentileR rnd boot (.fin c) = percentile boot (.fin c) := by
  have hn : 0 < boot.length := List.length_pos_iff.2 hne
  have hn1 : (1 : K) ≤ boot.length := by exact_mod_cast hn
  have h6 : 0 ≤ 6 * u * ((boot.length : K) - 1) := mul_nonneg (by positivity) (by linarith)
  obtain ⟨d1, d2⟩ := positions_close hr hm h100 hu hu1 he h0 h1 hn
  rw [abs_le] at d1 d2
  obtain ⟨LB, UB, e, s1, s2⟩ := percentileR_ok hr hm h100 hne hnm hnan h0 h1
  obtain ⟨LB', UB', e', s1', s2'⟩ := percentile_ok hne hnan h0 h1
  obtain ⟨-, l2, l3⟩ := lowR_facts hr hm h100 h0 h1 hn hnm
  obtain ⟨-, j1, j2, j3⟩ := highR_facts hr hm h100 h0 h1 hn hnm
  obtain ⟨-, i0, i1, i2⟩ := lowIdx_facts h0 h1 hn
  have natlt : ∀ a b : Nat, (a : K) < b + 1 → a ≤ b := by
    intro a b hab
    have : (a : K) < ((b + 1 : Nat) : K) := by push_cast; exact hab
    have : a < b + 1 := by exact_mod_cast this
    omega
  have hi : lowIdx c boot.length = k := le_antisymm (natlt _ _ (by linarith)) (natlt _ _ (by linarith))
  have hl : lowR rnd c boot.length = k :=
    le_antisymm (natlt _ _ (by linarith [d1.2])) (natlt _ _ (by linarith [d1.1]))
  have hkn : k ≤ boot.length - 1 := by omega
  have hcast : ((boot.length - 1 - k : Nat) : K) = (boot.length : K) - 1 - k := by
    rw [Nat.cast_sub hkn, Nat.cast_sub hn]
    simp
  have hh : highR rnd c boot.length = boot.length - 1 - k := by
    refine le_antisymm (natlt _ _ ?_) (natlt _ _ ?_)
    · rw [hcast]
      linarith [d2.2]
    · rw [hcast]
      linarith [d2.1]
  rw [hl] at s1
  rw [hh] at s2
  rw [hi] at s1' s2'
  rw [e, e', s1.unique s1', s2.unique s2']

/-- Numeric core of the first case of `C107_coherent`. -/
theorem coherent_low {u a n k : K} (hu : 0 ≤ u) (ha : 0 < a) (hn : 1 ≤ n) (h25 : 20 * n * u ≤ 1)
    (hk : k ≤ (1 + u) ^ 4 * (a / 2) * (n - 1)) : (1 + u) ^ 2 * (2 * (k / n)) < a := by
  have hu1 : u ≤ 1 / 20 := by nlinarith
  have h6 : (1 + u) ^ 6 ≤ 1 + 8 * u := by
    have h2 : (1 + u) ^ 2 ≤ 1 + (2 + 1 / 20) * u := by nlinarith
    have h3 : (1 + u) ^ 3 ≤ 1 + (33 / 10) * u := by
      have : (1 + u) ^ 3 = (1 + u) ^ 2 * (1 + u) := by ring
      rw [this]
      nlinarith
    have : (1 + u) ^ 6 = (1 + u) ^ 3 * (1 + u) ^ 3 := by ring
    rw [this]
    calc (1 + u) ^ 3 * (1 + u) ^ 3 ≤ (1 + (33 / 10) * u) * (1 + (33 / 10) * u) :=
          mul_le_mul h3 h3 (by positivity) (by positivity)
      _ ≤ 1 + 8 * u := by nlinarith
  have hpos : 0 < n := by linarith
  rw [show (1 + u) ^ 2 * (2 * (k / n)) = (1 + u) ^ 2 * 2 * k / n by ring, div_lt_iff₀ hpos]
  calc (1 + u) ^ 2 * 2 * k ≤ (1 + u) ^ 2 * 2 * ((1 + u) ^ 4 * (a / 2) * (n - 1)) :=
        mul_le_mul_of_nonneg_left hk (by positivity)
    _ = (1 + u) ^ 6 * (a * (n - 1)) := by ring
    _ ≤ (1 + 8 * u) * (a * (n - 1)) := mul_le_mul_of_nonneg_right h6 (mul_nonneg ha.le (by linarith))
    _ = a * ((1 + 8 * u) * (n - 1)) := by ring
    _ < a * n := by
      refine mul_lt_mul_of_pos_left ?_ ha
      nlinarith

/-- Numeric core of the second case of `C107_coherent`. -/
theorem coherent_high {u a n k α J : K} (hu : 0 ≤ u) (ha : 0 < a) (ha1 : a ≤ 1) (hn : 1 ≤ n) (h20 : 20 * n * u ≤ a)
    (hα : α ≤ (1 + u) * (a / 2)) (hα0 : 0 ≤ α) (hα1 : α ≤ 1) (hJ : (1 - u) ^ 4 * (1 - α) * (n - 1) ≤ J)
    (hk : k ≤ n - 1 - J) : (1 + u) ^ 2 * (2 * (k / n)) < a := by
  have hu1 : u ≤ 1 / 20 := by nlinarith
  have h4 : 1 - 4 * u ≤ (1 - u) ^ 4 := by
    have := one_add_mul_le_pow (show (-2 : K) ≤ -u by linarith) 4
    have e : 1 + -u = 1 - u := by ring
    rw [e] at this
    push_cast at this
    linarith
  have hk2 : k ≤ (n - 1) * ((1 + u) * (a / 2) + 4 * u) := by
    have h5 : (1 - 4 * u) * (1 - α) * (n - 1) ≤ J :=
      le_trans (mul_le_mul_of_nonneg_right (mul_le_mul_of_nonneg_right h4 (by linarith)) (by linarith)) hJ
    have h6 : n - 1 - J ≤ (n - 1) * (α + 4 * u * (1 - α)) := by nlinarith
    have h7 : α + 4 * u * (1 - α) ≤ (1 + u) * (a / 2) + 4 * u := by nlinarith
    exact hk.trans (h6.trans (mul_le_mul_of_nonneg_left h7 (by linarith)))
  have hpos : 0 < n := by linarith
  have h2 : (1 + u) ^ 2 ≤ 1 + 3 * u := by nlinarith
  rw [show (1 + u) ^ 2 * (2 * (k / n)) = (1 + u) ^ 2 * 2 * k / n by ring, div_lt_iff₀ hpos]
  calc (1 + u) ^ 2 * 2 * k ≤ (1 + u) ^ 2 * 2 * ((n - 1) * ((1 + u) * (a / 2) + 4 * u)) :=
        mul_le_mul_of_nonneg_left hk2 (by positivity)
    _ ≤ (1 + 3 * u) * 2 * ((n - 1) * ((1 + u) * (a / 2) + 4 * u)) :=
        mul_le_mul_of_nonneg_right (by linarith) (mul_nonneg (by linarith) (by positivity))
    _ = (n - 1) * ((1 + 3 * u) * ((1 + u) * a + 8 * u)) := by ring
    _ ≤ (n - 1) * (a + (14 : K) * u) := by
      refine mul_le_mul_of_nonneg_left ?_ (by linarith)
      have hua : u * a ≤ u := by nlinarith
      have huu : u * u ≤ u / 20 := by nlinarith
      have huua : u * u * a ≤ u / 20 := by nlinarith
      nlinarith
    _ < a * n := by nlinarith

/-- **C107, coherence.**  If the reference lies strictly outside the computed percentile interval, the computed
p-value is below the computed `1 - confidence`: interval and test agree in spite of rounding.  This holds for `n`
replicates as long as `25 n u` is at most `1 - confidence` (with double precision and 1000 replicates:
confidence up to 1 - 3e-12). -/
theorem C107_coherent (hr : FloatRounding rnd) {m : Nat} (hm : HalvesExact rnd m) (h100 : 100 ≤ m) {u : K} (hu : 0 ≤ u)
    (he : RelError u rnd) {boot : List (Flt K)} (hne : boot ≠ []) (hnm : boot.length ≤ m) {c : K}
    (h25 : 25 * (boot.length : K) * u ≤ 1 - c) {LB UB r : Flt K}
    (h : percentileR rnd boot (.fin c) = .ok (LB, UB)) (hrn : r ≠ .nan) (hout : r < LB ∨ UB < r) :
    ∃ p : K, significanceR rnd boot (.scalar r) = .ok (.fin p) ∧ p < rnd (1 - c) := by
  have hn : 0 < boot.length := List.length_pos_iff.2 hne
  have hn1 : (1 : K) ≤ boot.length := by exact_mod_cast hn
  have hnan : NoNaN boot := by
    by_contra hcon
    rw [← any_isNaN, Bool.not_eq_false] at hcon
    simp [percentileR, hcon, pyAssert_bind] at h
  have hc : 0 < c ∧ c < 1 := by
    by_contra hcon
    have : (decide (0 < c) && decide (c < 1)) = false := by
      rw [← Bool.not_eq_true, Bool.and_eq_true, decide_eq_true_eq, decide_eq_true_eq]
      exact hcon
    simp only [percentileR, confidenceToPercentilesR, any_isNaN.2 hnan, pyAssert_bind, this, Bool.not_false, if_true,
      Bool.false_eq_true, if_false, error_bind] at h
    cases h
  obtain ⟨c0, c1⟩ := hc
  obtain ⟨L, U, e, s1, s2⟩ := percentileR_ok hr hm h100 hne hnm hnan c0 c1
  rw [e, Except.ok.injEq, Prod.mk.injEq] at h
  obtain ⟨rfl, rfl⟩ := h
  obtain ⟨-, l2, -⟩ := lowR_facts hr hm h100 c0 c1 hn hnm
  obtain ⟨-, hh2, hh3, -⟩ := highR_facts hr hm h100 c0 c1 hn hnm
  obtain ⟨p, hp, p0, -, ep⟩ := C107_pvalue hr.toMonoRounding hne hnan hrn
  refine ⟨p, hp, ?_⟩
  have hun : u ≤ 1 / 25 := by nlinarith
  have a0 : 0 < rnd (1 - c) := hr.pos _ (by linarith)
  have a1 : rnd (1 - c) ≤ 1 := hr.le_one (by linarith)
  have h20 : 20 * (boot.length : K) * u ≤ rnd (1 - c) := by
    have := (rel_bounds he (show 0 ≤ 1 - c by linarith)).1
    nlinarith
  obtain ⟨al0, al1⟩ := alphaR_bounds hr hm h100 c0 c1
  have hα : alphaR rnd c ≤ (1 + u) * (rnd (1 - c) / 2) := by
    have := (rel_bounds he (show 0 ≤ 1 / 2 * rnd (1 - c) by linarith)).2
    unfold alphaR
    linarith
  have hn0 : (0 : K) ≤ (boot.length : K) - 1 := by linarith
  have hI : positionR rnd (rnd (100 * alphaR rnd c)) boot.length ≤
      (1 + u) ^ 4 * (rnd (1 - c) / 2) * ((boot.length : K) - 1) := by
    unfold positionR
    have b1 := (rel_bounds he (show 0 ≤ 100 * alphaR rnd c by positivity)).2
    have b0 : 0 ≤ rnd (100 * alphaR rnd c) := hr.nonneg (by positivity)
    have b2 := (rel_bounds he (show 0 ≤ rnd (100 * alphaR rnd c) / 100 by positivity)).2
    have b3 : 0 ≤ rnd (rnd (100 * alphaR rnd c) / 100) := hr.nonneg (by positivity)
    have b4 := (rel_bounds he (mul_nonneg b3 hn0)).2
    have b5 : rnd (rnd (100 * alphaR rnd c) / 100) ≤ (1 + u) ^ 3 * (rnd (1 - c) / 2) :=
      calc rnd (rnd (100 * alphaR rnd c) / 100) ≤ (1 + u) * (rnd (100 * alphaR rnd c) / 100) := b2
        _ ≤ (1 + u) * ((1 + u) * (100 * alphaR rnd c) / 100) := by gcongr
        _ ≤ (1 + u) * ((1 + u) * (100 * ((1 + u) * (rnd (1 - c) / 2))) / 100) := by gcongr
        _ = (1 + u) ^ 3 * (rnd (1 - c) / 2) := by ring
    calc rnd (rnd (rnd (100 * alphaR rnd c) / 100) * ((boot.length : K) - 1)) ≤
          (1 + u) * (rnd (rnd (100 * alphaR rnd c) / 100) * ((boot.length : K) - 1)) := b4
      _ ≤ (1 + u) * ((1 + u) ^ 3 * (rnd (1 - c) / 2) * ((boot.length : K) - 1)) := by gcongr
      _ = _ := by ring
  have hJ : (1 - u) ^ 4 * (1 - alphaR rnd c) * ((boot.length : K) - 1) ≤
      positionR rnd (rnd (100 * rnd (1 - alphaR rnd c))) boot.length := by
    unfold positionR
    have hu' : 0 ≤ 1 - u := by linarith
    have t1 := (rel_bounds he (show 0 ≤ 1 - alphaR rnd c by linarith)).1
    have t0 : 0 ≤ rnd (1 - alphaR rnd c) := hr.nonneg (by linarith)
    have b1 := (rel_bounds he (show 0 ≤ 100 * rnd (1 - alphaR rnd c) by positivity)).1
    have b0 : 0 ≤ rnd (100 * rnd (1 - alphaR rnd c)) := hr.nonneg (by positivity)
    have b2 := (rel_bounds he (show 0 ≤ rnd (100 * rnd (1 - alphaR rnd c)) / 100 by positivity)).1
    have b3 : 0 ≤ rnd (rnd (100 * rnd (1 - alphaR rnd c)) / 100) := hr.nonneg (by positivity)
    have b4 := (rel_bounds he (mul_nonneg b3 hn0)).1
    have b5 : (1 - u) ^ 3 * (1 - alphaR rnd c) ≤ rnd (rnd (100 * rnd (1 - alphaR rnd c)) / 100) :=
      calc (1 - u) ^ 3 * (1 - alphaR rnd c) = (1 - u) * ((1 - u) * (100 * ((1 - u) * (1 - alphaR rnd c))) / 100) := by ring
        _ ≤ (1 - u) * ((1 - u) * (100 * rnd (1 - alphaR rnd c)) / 100) := by gcongr
        _ ≤ (1 - u) * (rnd (100 * rnd (1 - alphaR rnd c)) / 100) := by gcongr
        _ ≤ _ := b2
    calc (1 - u) ^ 4 * (1 - alphaR rnd c) * ((boot.length : K) - 1) =
          (1 - u) * ((1 - u) ^ 3 * (1 - alphaR rnd c) * ((boot.length : K) - 1)) := by ring
      _ ≤ (1 - u) * (rnd (rnd (100 * rnd (1 - alphaR rnd c)) / 100) * ((boot.length : K) - 1)) := by gcongr
      _ ≤ _ := b4
  -- the p-value in terms of a count
  have hpk : ∀ k : K, 0 ≤ k → min ((boot.countP fun v => decide (v ≤ r) : Nat) : K)
      (boot.countP fun v => decide (r ≤ v) : Nat) ≤ k → p ≤ (1 + u) ^ 2 * (2 * (k / boot.length)) := by
    intro k hk0 hk
    have hl0 : (0 : K) < boot.length := by linarith
    have hm0 : (0 : K) ≤ min ((boot.countP fun v => decide (v ≤ r) : Nat) : K)
        (boot.countP fun v => decide (r ≤ v) : Nat) := le_min (Nat.cast_nonneg _) (Nat.cast_nonneg _)
    rw [ep]
    refine (min_le_right _ _).trans ?_
    have q1 : rnd (min ((boot.countP fun v => decide (v ≤ r) : Nat) : K)
        (boot.countP fun v => decide (r ≤ v) : Nat) / (boot.length : K)) ≤ rnd (k / boot.length) :=
      hr.mono (by gcongr)
    have q2 := (rel_bounds he (show 0 ≤ k / boot.length by positivity)).2
    have q3 : 0 ≤ rnd (k / boot.length) := hr.nonneg (by positivity)
    have q4 := (rel_bounds he (show 0 ≤ 2 * rnd (k / boot.length) by positivity)).2
    calc rnd (2 * rnd (min ((boot.countP fun v => decide (v ≤ r) : Nat) : K)
          (boot.countP fun v => decide (r ≤ v) : Nat) / (boot.length : K))) ≤ rnd (2 * rnd (k / boot.length)) :=
          hr.mono (by gcongr)
      _ ≤ (1 + u) * (2 * rnd (k / boot.length)) := q4
      _ ≤ (1 + u) * (2 * ((1 + u) * (k / boot.length))) := by gcongr
      _ = _ := by ring
  rcases hout with hlt | hlt
  · refine lt_of_le_of_lt (hpk (lowR rnd c boot.length : Nat) (Nat.cast_nonneg _) ?_)
      (coherent_low hu a0 hn1 (h20.trans a1) (l2.trans hI))
    apply min_le_of_left_le
    have : (boot.countP fun v => decide (v ≤ r)) ≤ lowR rnd c boot.length := by
      refine le_trans (countP_mono_imp ?_) s1.2.1
      intro a _ ha
      simp only [decide_eq_true_eq] at ha ⊢
      exact lt_of_le_of_lt ha hlt
    exact_mod_cast this
  · have hsum : boot.length = (boot.countP fun v => decide (r ≤ v)) + boot.countP fun v => decide (v < r) := by
      rw [List.length_eq_countP_add_countP (p := fun v => decide (r ≤ v)) (l := boot)]
      congr 2
      funext v
      rw [Bool.eq_iff_iff]; simp
    have h4 : (boot.countP fun v => decide (v ≤ U)) ≤ boot.countP fun v => decide (v < r) := by
      apply countP_mono_imp
      intro a _ ha
      simp only [decide_eq_true_eq] at ha ⊢
      exact lt_of_le_of_lt ha hlt
    have h3 := s2.2.2
    have h5 : (boot.countP fun v => decide (r ≤ v)) + highR rnd c boot.length ≤ boot.length - 1 := by omega
    have h6 : ((boot.countP fun v => decide (r ≤ v) : Nat) : K) ≤
        (boot.length : K) - 1 - (highR rnd c boot.length : Nat) := by
      have : (((boot.countP fun v => decide (r ≤ v)) + highR rnd c boot.length + 1 : Nat) : K) ≤ boot.length := by
        exact_mod_cast (by omega)
      push_cast at this
      linarith
    refine lt_of_le_of_lt (hpk _ (Nat.cast_nonneg _) (min_le_right _ _))
      (coherent_high hu a0 a1 hn1 h20 hα al0 (by linarith) (hJ.trans hh3) h6)

/-! ## Double precision and examples -/

theorem binary64_halves : HalvesExact (binary64 : K → K) (2 ^ 52) := by
  intro k hk
  have := binary64_exact (K := K) (k : Int) (-1) (by
    rw [abs_of_nonneg (by positivity)]
    have : k ≤ 2 ^ 53 := by omega
    exact_mod_cast this)
  simpa [zpow_neg, div_eq_mul_inv] using this

/-- **C107, the default interval.**  With the default of 1000 replicates and confidence 0.95, in double precision, rounding never changes the interval. -/
theorem C107_default {boot : List (Flt K)} (h : boot.length = 1000) (hnan : NoNaN boot) :
    percentileR binary64 boot (.fin (binary64 (95 / 100))) = percentile boot (.fin (binary64 (95 / 100))) := by
  have hb := binary64_relError (K := K) (95 / 100)
  rw [_root_.abs_le] at hb
  norm_num [abs_of_pos] at hb
  obtain ⟨b1, b2⟩ := hb
  refine C107_exact (u := 1 / 2 ^ 53) (k := 24) binary64_floatRounding binary64_halves (by norm_num) (by norm_num)
    (by norm_num) binary64_relError (by rintro rfl; simp at h) (by rw [h]; norm_num) hnan ?_ ?_ ?_ ?_ <;>
    (try rw [h]) <;> norm_num <;> linarith

end

example (x : ℚ) : percentileR binary64 (finVec (List.replicate 500 x ++ List.replicate 500 (x + 1))) (.fin (binary64 (95 / 100))) =
    percentile (finVec (List.replicate 500 x ++ List.replicate 500 (x + 1))) (.fin (binary64 (95 / 100))) :=
  C107_default (by rw [finVec, List.length_map, List.length_append, List.length_replicate, List.length_replicate])
    (by intro h; obtain ⟨v, -, e⟩ := List.mem_map.1 h; cases e)

-- rounding can change the interval: of 11 replicates and confidence 0.8, exact arithmetic takes the smallest and
-- the largest entry, floating point arithmetic the smallest and the second largest
example : (lowR binary64 (binary64 (8 / 10) : ℚ) 11, highR binary64 (binary64 (8 / 10) : ℚ) 11,
    lowIdx (binary64 (8 / 10) : ℚ) 11) = (0, 9, 0) := by
  decide +kernel

example : ∃ p : ℚ, significanceR binary64 (finVec [1, 2, 3]) (.scalar (.fin 0)) = .ok (.fin p) ∧ p = 0 := by
  refine ⟨0, by decide +kernel, rfl⟩

example : percentileR (binary64 : ℚ → ℚ) (finVec [3, 1, 2, 5, 4]) (.fin (1 / 2)) = .ok (.fin 2, .fin 4) := by
  decide +kernel

end Mlp.Props
