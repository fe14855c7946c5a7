import Verif.Lemmas.Decimalize
import Mathlib.Algebra.Order.Archimedean.Basic

/-!
# Properties C04-C07, C09, C10: conversion of float tables to `Decimal`

Every theorem is about the model of `create_decimal` / `decimalize` in
`Verif/Model/Sciprint.lean`; the notions `fval`, `sval`, `SigGrid`, `RoundsUp`, `RoundsHalfUp`,
`RoundsToUnit`, `CeilsToUnit` are plain rational-number specifications from `Verif/Spec`.
-/

namespace Mlp.Props
open Mlp Spec Sciprint

/-! ## C04: `create_decimal` -/

/-- **C04** (ROUND_CEILING). The result has at most `digits` digits and is the *least* number
with that many significant digits that is not below the float. -/
theorem C04_create_decimal_ceiling (neg : Bool) (m : Nat) (e : Int) (digits : Nat)
    (h : 1 ≤ digits) :
    ∃ n c k, createDecimal (.fin neg m e) digits .ceiling = .ok (.fin n c k) ∧
      c < 10 ^ digits ∧ RoundsUp digits (fval neg m e) (sval n c k) := by
  obtain ⟨c, k, hf, hv⟩ := ofFloat_val neg m e
  obtain ⟨c', k', hfix, hlt, hr⟩ := fix_ceiling digits h (if c = 0 then false else neg) c k
  refine ⟨if c = 0 then false else neg, c', k', ?_, hlt, ?_⟩
  · rw [createDecimal_eq, if_pos h, hf, pos_fin, hfix]
  · rw [sval_posZero, hv] at hr; exact hr

/-- **C04** (ROUND_HALF_UP). The result is a *nearest* number with `digits` significant digits,
ties away from zero. -/
theorem C04_create_decimal_half_up (neg : Bool) (m : Nat) (e : Int) (digits : Nat)
    (h : 1 ≤ digits) :
    ∃ n c k, createDecimal (.fin neg m e) digits .halfUp = .ok (.fin n c k) ∧
      c < 10 ^ digits ∧ RoundsHalfUp digits (fval neg m e) (sval n c k) := by
  obtain ⟨c, k, hf, hv⟩ := ofFloat_val neg m e
  obtain ⟨c', k', hfix, hlt, hr⟩ := fix_halfUp digits h (if c = 0 then false else neg) c k
  refine ⟨if c = 0 then false else neg, c', k', ?_, hlt, ?_⟩
  · rw [createDecimal_eq, if_pos h, hf, pos_fin, hfix]
  · rw [sval_posZero, hv] at hr; exact hr

/-- **C04** A float whose exact decimal expansion fits in `digits` digits is returned unchanged
(only a negative zero loses its sign). -/
theorem C04_create_decimal_exact (x : PyFloat) (digits : Nat) (m : Rounding) (n : Bool) (c : Nat)
    (k : Int) (h : 1 ≤ digits) (hx : Dec.ofFloat x = .fin n c k) (hc : c < 10 ^ digits) :
    createDecimal x digits m = .ok (.fin (n && decide (c ≠ 0)) c k) := by
  rw [createDecimal_eq, if_pos h, hx, pos_fin]
  simp only [Dec.fix, (ndig_le_iff c digits h).mpr hc, if_true]
  by_cases h0 : c = 0 <;> simp [h0]

/-- **C04** Non-finite floats pass through; `digits = 0` is rejected. -/
theorem C04_create_decimal_special (digits : Nat) (m : Rounding) :
    (1 ≤ digits → createDecimal .nan digits m = .ok .nan ∧
      ∀ b, createDecimal (.inf b) digits m = .ok (.inf b)) ∧
    (∀ x, createDecimal x 0 m = .error .assertion) := by
  refine ⟨fun h => ⟨?_, fun b => ?_⟩, fun x => ?_⟩ <;> rw [createDecimal_eq]
  · rw [if_pos h]; rfl
  · rw [if_pos h]; rfl
  · rfl

/-- **C04** Rounding is monotone in both modes. -/
theorem C04_create_decimal_monotone (n₁ n₂ : Bool) (m₁ m₂ : Nat) (e₁ e₂ : Int) (digits : Nat)
    (md : Rounding) (hmd : md = .ceiling ∨ md = .halfUp) (h : 1 ≤ digits)
    (hle : fval n₁ m₁ e₁ ≤ fval n₂ m₂ e₂) :
    ∃ y₁ y₂, createDecimal (.fin n₁ m₁ e₁) digits md = .ok y₁ ∧
      createDecimal (.fin n₂ m₂ e₂) digits md = .ok y₂ ∧ DLe y₁ y₂ := by
  rcases hmd with rfl | rfl
  · obtain ⟨a₁, c₁, k₁, h₁, -, r₁⟩ := C04_create_decimal_ceiling n₁ m₁ e₁ digits h
    obtain ⟨a₂, c₂, k₂, h₂, -, r₂⟩ := C04_create_decimal_ceiling n₂ m₂ e₂ digits h
    refine ⟨_, _, h₁, h₂, ?_⟩
    simp only [DLe]
    exact r₁.2 ⟨r₂.1.1, le_trans hle r₂.1.2⟩
  · obtain ⟨a₁, c₁, k₁, h₁, -, r₁⟩ := C04_create_decimal_half_up n₁ m₁ e₁ digits h
    obtain ⟨a₂, c₂, k₂, h₂, -, r₂⟩ := C04_create_decimal_half_up n₂ m₂ e₂ digits h
    refine ⟨_, _, h₁, h₂, ?_⟩
    simp only [DLe]
    set x := fval n₁ m₁ e₁
    set x' := fval n₂ m₂ e₂
    set y := sval a₁ c₁ k₁
    set y' := sval a₂ c₂ k₂
    by_contra hlt
    push Not at hlt
    have A := r₁.2 y' r₂.1
    have B := r₂.2 y r₁.1
    -- both are equally far from both points, which forces 0
    have hA : y + y' ≤ 2 * x := by
      have := A.1
      rcases le_total y x with h1 | h1
      · linarith
      · rw [abs_of_nonneg (by linarith : (0 : ℚ) ≤ y - x)] at this
        rcases le_total y' x with h2 | h2
        · rw [abs_of_nonpos (by linarith : y' - x ≤ 0)] at this; linarith
        · rw [abs_of_nonneg (by linarith : (0 : ℚ) ≤ y' - x)] at this; linarith
    have hB : 2 * x' ≤ y + y' := by
      have := B.1
      rcases le_total x' y' with h1 | h1
      · linarith
      · rw [abs_of_nonpos (by linarith : y' - x' ≤ 0)] at this
        rcases le_total y x' with h2 | h2
        · rw [abs_of_nonpos (by linarith : y - x' ≤ 0)] at this; linarith
        · rw [abs_of_nonneg (by linarith : (0 : ℚ) ≤ y - x')] at this; linarith
    have hxx : x = x' := by linarith
    have hmid : 2 * x = y + y' := by linarith
    have e1 : |y' - x| = |y - x| := by
      rw [abs_of_nonpos (by linarith), abs_of_nonneg (by linarith)]; linarith
    have h1 := A.2 e1
    have h2 := B.2 (by rw [← hxx]; exact e1.symm)
    rcases abs_eq_abs.mp (le_antisymm h1 h2) with h3 | h3
    · linarith
    · have hx0 : x = 0 := by linarith
      have h0 : SigGrid digits 0 := ⟨false, 0, 0, by positivity, by simp [sval]⟩
      have h4 := (r₁.2 0 h0).1
      rw [hx0, sub_zero, sub_zero, abs_zero] at h4
      have h5 := abs_eq_zero.mp (le_antisymm h4 (abs_nonneg _))
      linarith

/-- C04, a concrete case: `create_decimal(0.0999, 2, ROUND_CEILING)` carries into a new digit and
`create_decimal(2.5, 1)` rounds the tie away from zero. -/
example : createDecimal (.fin false 7198733653021491 (-56)) 2 .ceiling = .ok (.fin false 10 (-2)) ∧
    createDecimal (.fin true 5 (-1)) 1 .halfUp = .ok (.fin true 3 0) := by decide +kernel

/-! ## C05: error bars -/

theorem clipErr_cases (lim : Option Int) (eb : Dec) :
    clipErr lim eb = eb ∨ clipErr lim eb = .inf false := by
  unfold clipErr; split_ifs <;> simp

theorem leNum_zero_fin (n : Bool) (c : Nat) (e : Int) :
    Dec.leNum (.ofNat 0) (.fin n c e) = true ↔ 0 ≤ sval n c e := by
  rw [leNum_iff]; simp [DLe, Dec.ofNat, sval]

/-- The error part of a successful conversion. -/
theorem decimalizeCell_ok {o : DecimalizeOpts} {lim : Option Int} {x : FpCell} {r : DecCell}
    (h : decimalizeCell o lim x = .ok r) :
    1 ≤ o.errDigits ∧ ∃ eb0, createDecimal x.err o.errDigits .ceiling = .ok eb0 ∧
      (eb0.isNan || Dec.leNum (.ofNat 0) eb0) = true ∧ r.err = clipErr lim eb0 ∧
      cellMean o r.err x.mean = .ok r.mean ∧
      Dec.quantize .ceiling (Dec.ofFloat x.pval) (.fin false 1 (-(o.pvalDigits : Int))) =
        .ok r.pval ∧
      (r.pval.isNan || (Dec.leNum (.ofNat 0) r.pval && Dec.leNum r.pval (.ofNat 1))) = true := by
  rw [decimalizeCell_eq] at h
  split at h
  · rename_i h1
    refine ⟨h1, _, by rw [createDecimal_eq, if_pos h1], ?_⟩
    simp only [] at h
    split at h
    · rename_i h2
      rw [bind_ok_iff] at h
      obtain ⟨mu, hmu, h⟩ := h
      rw [bind_ok_iff] at h
      obtain ⟨p, hp, h⟩ := h
      split at h
      · rename_i h3
        cases h
        exact ⟨h2, rfl, hmu, hp, h3⟩
      · cases h
    · cases h
  · cases h

/-- **C05** Without a limit, the printed error is the least number of `err_digits` significant
digits that is not below the float error; in particular it never understates the error and
overstates it by less than one unit of its last place. -/
theorem C05_error_never_understated (o : DecimalizeOpts) (x : FpCell) (r : DecCell)
    (n : Bool) (m : Nat) (e : Int) (hx : x.err = .fin n m e)
    (h : decimalizeCell o none x = .ok r) :
    ∃ c k, r.err = .fin false c k ∧ c < 10 ^ o.errDigits ∧
      RoundsUp o.errDigits (fval n m e) (sval false c k) ∧
      fval n m e ≤ sval false c k ∧ sval false c k - 10 ^ k < fval n m e ∧
      (fval n m e = 0 → c = 0) := by
  obtain ⟨h1, eb0, he, hnn, herr, -⟩ := decimalizeCell_ok h
  obtain ⟨a, c, k, hc, hlt, hr⟩ := C04_create_decimal_ceiling n m e o.errDigits h1
  rw [hx, hc] at he
  cases he
  have hnn' : 0 ≤ sval a c k := by simpa [Dec.isNan, leNum_zero_fin] using hnn
  have herr' : r.err = .fin a c k := by
    rw [herr]; simp [clipErr, Dec.leNum]
  -- the sign is positive
  have ha : a = false := by
    cases a with
    | false => rfl
    | true =>
      have hc0 : c = 0 := by
        have h2 : sval true c k ≤ 0 := by rw [sval_neg]; linarith [sval_nonneg c k]
        exact (sval_eq_zero true c k).mp (le_antisymm h2 hnn')
      -- a zero coefficient always comes with a positive sign
      exfalso
      rw [createDecimal_eq, if_pos h1] at hc
      obtain ⟨c0, k0, hf, hv⟩ := ofFloat_val n m e
      rw [hf, pos_fin] at hc
      obtain ⟨c', k', hfix, hlt', hval, -, -, hz⟩ :=
        fix_spec o.errDigits h1 .ceiling (if c0 = 0 then false else n) c0 k0
      rw [hfix] at hc
      injection hc with hc
      injection hc with hs hcc hkk
      have hc0' : c0 ≠ 0 := by
        rintro rfl
        simp at hs
      rw [if_neg hc0'] at hs
      subst hs
      rw [if_neg hc0'] at hval
      rw [hcc, hc0, (sval_eq_zero _ _ _).mpr rfl] at hval
      have hq := (sval_eq_zero _ _ _).mp hval.symm
      by_cases hd : ndig c0 ≤ o.errDigits
      · have hz' := hz (by unfold dropped; omega)
        rw [hcc, hc0] at hz'
        exact hc0' hz'.1.symm
      · have hl := lead_bounds o.errDigits h1 c0 (by omega)
        have h3 := (roundOff_ceil_neg c0 (dropped o.errDigits c0)).2
        rw [hq] at h3
        have h4 : (1 : ℚ) ≤ 10 ^ (o.errDigits - 1) := one_le_pow₀ (by norm_num)
        push_cast at h3
        linarith
  subst ha
  refine ⟨c, k, herr', hlt, hr, hr.1.2, ?_, ?_⟩
  · -- one unit less is representable, hence below the float
    have hk := zpow10_pos k
    by_contra hcon
    push Not at hcon
    rcases Nat.eq_zero_or_pos c with hc0 | hc0
    · subst hc0
      have h1' : sval false 0 k = 0 := (sval_eq_zero _ _ _).mpr rfl
      rw [h1'] at hcon
      -- then the float is negative, and 1 unit below 0 would do better than 0
      have hneg : SigGrid o.errDigits (-(10 : ℚ) ^ k) := by
        refine ⟨true, 1, k, Nat.one_lt_pow (by omega) (by norm_num), by simp [sval]⟩
      have := hr.2 ⟨hneg, by linarith⟩
      rw [h1'] at this
      linarith
    · have hg : SigGrid o.errDigits (sval false c k - 10 ^ k) := by
        refine ⟨false, c - 1, k, by omega, ?_⟩
        unfold sval
        push_cast [hc0]
        simp; ring
      have := hr.2 ⟨hg, hcon⟩
      linarith
  · intro h0
    have h0g : SigGrid o.errDigits 0 := ⟨false, 0, 0, by positivity, by simp [sval]⟩
    have h1' := hr.2 ⟨h0g, by rw [h0]⟩
    exact (sval_eq_zero _ _ _).mp (le_antisymm h1' hnn')

/-- **C05** Infinite and NaN errors are kept. -/
theorem C05_error_special (o : DecimalizeOpts) (lim : Option Int) (x : FpCell) (r : DecCell)
    (h : decimalizeCell o lim x = .ok r) :
    (x.err = .nan → r.err = .nan) ∧ (∀ b, x.err = .inf b → r.err = .inf false) := by
  obtain ⟨h1, eb0, he, hnn, herr, -⟩ := decimalizeCell_ok h
  refine ⟨fun hx => ?_, fun b hx => ?_⟩ <;> rw [hx, createDecimal_eq, if_pos h1] at he <;>
    cases he <;> rw [herr]
  · rfl
  · cases b with
    | true => simp [Dec.pos, Dec.ofFloat, Dec.isNan, Dec.leNum, Dec.ofNat] at hnn
    | false => cases lim <;> simp [clipErr, Dec.pos, Dec.ofFloat, Dec.isNan, Dec.leNum]

/-- C05, a concrete case: error 0.0671 is printed as 0.068. -/
example : decimalizeCell {} none
      ⟨.fin false 5559694539867914 (-52), .fin false 4835128949218599 (-56), .fin false 1 (-2)⟩ =
    .ok ⟨.fin false 1235 (-3), .fin false 68 (-3), .fin false 2500 (-4)⟩ := by decide +kernel

/-! ## C06: p-values -/

/-- **C06** The Decimal p-value is the least multiple of `10^-pval_digits` that is not below the
float p-value, and (being accepted) lies in `[0, 1]`. -/
theorem C06_pval_never_understated (o : DecimalizeOpts) (lim : Option Int) (x : FpCell) (r : DecCell)
    (n : Bool) (m : Nat) (e : Int) (hx : x.pval = .fin n m e)
    (h : decimalizeCell o lim x = .ok r) :
    ∃ c, r.pval = .fin n c (-(o.pvalDigits : Int)) ∧
      CeilsToUnit (10 ^ (-(o.pvalDigits : Int))) (fval n m e) (sval n c (-(o.pvalDigits : Int))) ∧
      fval n m e ≤ sval n c (-(o.pvalDigits : Int)) ∧
      sval n c (-(o.pvalDigits : Int)) < fval n m e + 10 ^ (-(o.pvalDigits : Int)) ∧
      0 ≤ sval n c (-(o.pvalDigits : Int)) ∧ sval n c (-(o.pvalDigits : Int)) ≤ 1 := by
  obtain ⟨h1, eb0, he, hnn, herr, hm, hq, hp⟩ := decimalizeCell_ok h
  obtain ⟨c, k, hf, hv⟩ := ofFloat_val n m e
  rw [hx, hf, quantize_fin] at hq
  split at hq
  · cases hq
  · injection hq with hq
    refine ⟨_, hq.symm, ?_⟩
    have hc := rescaled_ceil n c k (-(o.pvalDigits : Int))
    rw [hv] at hc
    rw [← hq] at hp
    simp only [Dec.isNan, Bool.false_or, Bool.and_eq_true, leNum_iff, DLe,
      Dec.ofNat] at hp
    refine ⟨hc, hc.1.2, ?_, by simpa [sval] using hp.1, ?_⟩
    · by_contra hcon
      push Not at hcon
      obtain ⟨j, hj⟩ := hc.1.1
      have h3 := hc.2 ⟨⟨j - 1, rfl⟩, by push_cast; rw [sub_mul, one_mul, ← hj]; linarith⟩
      push_cast at h3
      rw [sub_mul, one_mul, ← hj] at h3
      linarith [zpow10_pos (-(o.pvalDigits : Int))]
    · simpa [sval] using hp.2

/-- Conversion of a p-value in `(-10^-k,1]` succeeds and passes the range assertion. -/
theorem pval_ok (k : Nat) (hk : k ≤ 27) (p : PyFloat)
    (hp : p = .nan ∨ ∃ n m e, p = .fin n m e ∧ -(10 : ℚ) ^ (-(k : Int)) < fval n m e ∧ fval n m e ≤ 1) :
    ∃ d, Dec.quantize .ceiling (Dec.ofFloat p) (.fin false 1 (-(k : Int))) = .ok d ∧
      (d.isNan || (Dec.leNum (.ofNat 0) d && Dec.leNum d (.ofNat 1))) = true := by
  rcases hp with rfl | ⟨n, m, e, rfl, h0, h1⟩
  · exact ⟨.nan, rfl, rfl⟩
  · obtain ⟨c, k', hf, hv⟩ := ofFloat_val n m e
    have hc := rescaled_ceil n c k' (-(k : Int))
    rw [hv] at hc
    have hu := zpow10_pos (-(k : Int))
    have hle1 : sval n (rescaled .ceiling n c k' (-(k : Int))) (-(k : Int)) ≤ 1 := by
      apply hc.2
      refine ⟨⟨10 ^ k, ?_⟩, h1⟩
      push_cast
      rw [zpow_neg, zpow_natCast, mul_inv_cancel₀ (by positivity)]
    have hge0 : 0 ≤ sval n (rescaled .ceiling n c k' (-(k : Int))) (-(k : Int)) := by
      obtain ⟨⟨j, hj⟩, hge⟩ := hc.1
      rw [hj] at hge ⊢
      have hj0 : (-1 : ℚ) < j := by nlinarith
      have hj1 : 0 ≤ j := by
        have : (-1 : ℤ) < j := by exact_mod_cast hj0
        omega
      have : (0 : ℚ) ≤ j := by exact_mod_cast hj1
      positivity
    refine ⟨.fin n (rescaled .ceiling n c k' (-(k : Int))) (-(k : Int)), ?_, ?_⟩
    · rw [hf, quantize_fin, if_neg]
      intro hbig
      have h2 : |sval n (rescaled .ceiling n c k' (-(k : Int))) (-(k : Int))| ≤ 1 := by
        rw [abs_of_nonneg hge0]; exact hle1
      rw [abs_sval, zpow_neg, zpow_natCast, ← div_eq_mul_inv, div_le_one (by positivity)] at h2
      have h3 : rescaled .ceiling n c k' (-(k : Int)) ≤ 10 ^ k := by exact_mod_cast h2
      have h4 : 10 ^ k ≤ 10 ^ 27 := Nat.pow_le_pow_right (by norm_num) hk
      have h5 : (10 : Nat) ^ 27 < 10 ^ 28 := by norm_num
      omega
    · simp only [Dec.isNan, Bool.false_or, Bool.and_eq_true, leNum_iff, DLe,
        Dec.ofNat]
      exact ⟨by simpa [sval] using hge0, by simpa [sval] using hle1⟩

/-- **C06** The range assertion on p-values never fails for `p` in `[0,1]` or NaN: if error and
mean convert, so does the cell.  (The precision must fit the 28-digit context.) -/
theorem C06_pval_assert_never_fails (o : DecimalizeOpts) (lim : Option Int) (x : FpCell)
    (hk : o.pvalDigits ≤ 27)
    (hp : x.pval = .nan ∨ ∃ n m e, x.pval = .fin n m e ∧ 0 ≤ fval n m e ∧ fval n m e ≤ 1)
    (he : 1 ≤ o.errDigits) (eb0 mu : Dec)
    (heb : createDecimal x.err o.errDigits .ceiling = .ok eb0)
    (hnn : eb0 = .nan ∨ DLe (.ofNat 0) eb0)
    (hmu : cellMean o (clipErr lim eb0) x.mean = .ok mu) :
    ∃ p, decimalizeCell o lim x = .ok ⟨mu, clipErr lim eb0, p⟩ := by
  rw [decimalizeCell_eq, if_pos he]
  rw [createDecimal_eq, if_pos he] at heb
  injection heb with heb
  have hp : x.pval = .nan ∨ ∃ n m e, x.pval = .fin n m e ∧ -(10 : ℚ) ^ (-(o.pvalDigits : Int)) < fval n m e ∧
      fval n m e ≤ 1 := by
    rcases hp with hp | ⟨n, m, e, h, h0, h1⟩
    · exact .inl hp
    · exact .inr ⟨n, m, e, h, by linarith [zpow10_pos (-(o.pvalDigits : Int))], h1⟩
  obtain ⟨d, hd, hd2⟩ := pval_ok o.pvalDigits hk x.pval hp
  refine ⟨d, ?_⟩
  simp only [heb]
  rw [if_pos, hmu, ok_bind, hd, ok_bind, if_pos hd2]
  rcases hnn with rfl | h
  · rfl
  · rw [(leNum_iff _ _).mpr h, Bool.or_true]

/-- **C06** NaN p-values stay NaN. -/
theorem C06_pval_nan (o : DecimalizeOpts) (lim : Option Int) (x : FpCell) (r : DecCell)
    (hx : x.pval = .nan) (h : decimalizeCell o lim x = .ok r) : r.pval = .nan := by
  obtain ⟨-, -, -, -, -, -, hq, -⟩ := decimalizeCell_ok h
  rw [hx] at hq
  simp only [Dec.ofFloat, Dec.quantize] at hq
  injection hq with hq
  exact hq.symm

/-- **C06** Finite p-values outside `(-10^-pval_digits, 1]` are rejected. -/
theorem C06_pval_rejected (o : DecimalizeOpts) (lim : Option Int) (x : FpCell)
    (n : Bool) (m : Nat) (e : Int) (hx : x.pval = .fin n m e)
    (hbad : fval n m e ≤ -(10 : ℚ) ^ (-(o.pvalDigits : Int)) ∨ 1 < fval n m e) (r : DecCell) :
    decimalizeCell o lim x ≠ .ok r := by
  intro h
  obtain ⟨c, -, -, hge, hlt, h0, h1⟩ := C06_pval_never_understated o lim x r n m e hx h
  rcases hbad with h | h <;> linarith

/-- **C06** Exactly which finite p-values are accepted, if error and mean convert: those in
`(-10^-pval_digits, 1]` (a slightly negative value is rounded up to `-0`). -/
theorem C06_pval_accepted (o : DecimalizeOpts) (lim : Option Int) (x : FpCell) (hk : o.pvalDigits ≤ 27)
    (he : 1 ≤ o.errDigits) (eb0 mu : Dec)
    (heb : createDecimal x.err o.errDigits .ceiling = .ok eb0)
    (hnn : eb0 = .nan ∨ DLe (.ofNat 0) eb0)
    (hmu : cellMean o (clipErr lim eb0) x.mean = .ok mu)
    (n : Bool) (m : Nat) (e : Int) (hx : x.pval = .fin n m e) :
    (∃ r, decimalizeCell o lim x = .ok r) ↔
      -(10 : ℚ) ^ (-(o.pvalDigits : Int)) < fval n m e ∧ fval n m e ≤ 1 := by
  constructor
  · rintro ⟨r, h⟩
    by_contra hcon
    refine C06_pval_rejected o lim x n m e hx ?_ r h
    rcases le_or_gt (fval n m e) (-(10 : ℚ) ^ (-(o.pvalDigits : Int))) with h1 | h1
    · exact .inl h1
    · exact .inr (lt_of_not_ge fun h2 => hcon ⟨h1, h2⟩)
  · rintro ⟨h0, h1⟩
    rw [decimalizeCell_eq, if_pos he]
    rw [createDecimal_eq, if_pos he] at heb
    injection heb with heb
    obtain ⟨d, hd, hd2⟩ := pval_ok o.pvalDigits hk x.pval (.inr ⟨n, m, e, hx, h0, h1⟩)
    refine ⟨⟨mu, clipErr lim eb0, d⟩, ?_⟩
    simp only [heb]
    rw [if_pos, hmu, ok_bind, hd, ok_bind, if_pos hd2]
    rcases hnn with rfl | h
    · rfl
    · rw [(leNum_iff _ _).mpr h, Bool.or_true]

/-- A p-value of `-2^-20` (an artefact of rounding) is accepted with four digits, `-2^-10` is not. -/
example : (∃ r, decimalizeCell {} none ⟨.fin false 1 0, .fin false 1 (-3), .fin true 1 (-20)⟩ = .ok r) ∧
    ¬ ∃ r, decimalizeCell {} none ⟨.fin false 1 0, .fin false 1 (-3), .fin true 1 (-10)⟩ = .ok r := by
  constructor
  · refine (C06_pval_accepted {} none _ (by decide) (by decide) _ _ rfl (.inr ?_) rfl true 1 (-20) rfl).mpr ?_
    · exact (leNum_iff _ _).mp (by decide)
    · norm_num [fval]
  · rw [C06_pval_accepted {} none _ (by decide) (by decide) _ _ rfl (.inr ?_) rfl true 1 (-10) rfl]
    · norm_num [fval]
    · exact (leNum_iff _ _).mp (by decide)

/-! ## C07: means -/

/-- **C07** When the final error bar is finite and non-zero, the mean gets exactly its exponent
and is the float mean rounded half-up (ties away from zero) to that quantum, so it is off by at
most half a unit. -/
theorem C07_mean_half_up_to_error_quantum (o : DecimalizeOpts) (lim : Option Int) (x : FpCell)
    (r : DecCell) (n : Bool) (m : Nat) (e : Int) (hx : x.mean = .fin n m e)
    (en : Bool) (ec : Nat) (ee : Int) (hr : r.err = .fin en ec ee) (hec : ec ≠ 0)
    (h : decimalizeCell o lim x = .ok r) :
    ∃ c, r.mean = .fin n c ee ∧ c < 10 ^ 28 ∧
      RoundsToUnit (10 ^ ee) (fval n m e) (sval n c ee) ∧
      |sval n c ee - fval n m e| ≤ 10 ^ ee / 2 := by
  obtain ⟨-, -, -, -, -, hm, -, -⟩ := decimalizeCell_ok h
  obtain ⟨c, k, hf, hv⟩ := ofFloat_val n m e
  have h2 : (Dec.fin en ec ee).isFinite && !(Dec.fin en ec ee).isZero := by
    simp [Dec.isFinite, Dec.isZero, hec]
  rw [hr] at hm
  unfold cellMean at hm
  rw [if_pos h2, hx, hf, quantize_fin] at hm
  split at hm
  · cases hm
  · rename_i hlt
    injection hm with hm
    have hR := rescaled_halfUp n c k ee
    rw [hv] at hR
    refine ⟨_, hm.symm, by omega, hR, ?_⟩
    -- nearest multiple is within half a unit
    have hu := zpow10_pos ee
    obtain ⟨⟨j, hj⟩, hn⟩ := hR
    have a := (hn (j + 1)).1
    have b := (hn (j - 1)).1
    push_cast at a b
    rw [add_mul, one_mul, ← hj] at a
    rw [sub_mul, one_mul, ← hj] at b
    set y := sval n (rescaled .halfUp n c k ee) ee
    set v := fval n m e
    rcases le_total y v with hle | hle
    · rw [abs_of_nonpos (by linarith)] at a ⊢
      by_contra hcon
      push Not at hcon
      rcases le_total (y + 10 ^ ee) v with h3 | h3
      · rw [abs_of_nonpos (by linarith)] at a; linarith
      · rw [abs_of_nonneg (by linarith)] at a; linarith
    · rw [abs_of_nonneg (by linarith)] at b ⊢
      by_contra hcon
      push Not at hcon
      rcases le_total v (y - 10 ^ ee) with h3 | h3
      · rw [abs_of_nonneg (by linarith)] at b; linarith
      · rw [abs_of_nonpos (by linarith)] at b; linarith

/-- **C07** Otherwise (error zero, infinite or NaN) the mean is rounded half-up to
`default_digits` significant digits. -/
theorem C07_mean_default_digits (o : DecimalizeOpts) (lim : Option Int) (x : FpCell)
    (r : DecCell) (n : Bool) (m : Nat) (e : Int) (hx : x.mean = .fin n m e)
    (hr : ∀ en ec ee, r.err = .fin en ec ee → ec = 0)
    (h : decimalizeCell o lim x = .ok r) :
    ∃ n' c k, r.mean = .fin n' c k ∧ c < 10 ^ o.defaultDigits ∧
      RoundsHalfUp o.defaultDigits (fval n m e) (sval n' c k) := by
  obtain ⟨-, -, -, -, -, hm, -, -⟩ := decimalizeCell_ok h
  have h2 : (r.err.isFinite && !r.err.isZero) = false := by
    cases hre : r.err with
    | nan => rfl
    | inf b => rfl
    | fin en ec ee => simp [Dec.isFinite, Dec.isZero, hr en ec ee hre]
  unfold cellMean at hm
  rw [h2] at hm
  simp only [Bool.false_eq_true, if_false] at hm
  by_cases hd : 1 ≤ o.defaultDigits
  · obtain ⟨n', c, k, hc, hlt, hR⟩ := C04_create_decimal_half_up n m e o.defaultDigits hd
    rw [hx, hc] at hm
    injection hm with hm
    exact ⟨n', c, k, hm.symm, hlt, hR⟩
  · rw [createDecimal_eq, if_neg hd] at hm; cases hm

/-- C07, a concrete tie: mean 0.125 with error 0.01 is printed as 0.13, and -0.125 as -0.13
(error 2^-7 rounds up to 0.0079, so use one digit: 0.008). -/
example : decimalizeCell { errDigits := 1 } none
      ⟨.fin true 1 (-4), .fin false 1 (-7), .nan⟩ =
    .ok ⟨.fin true 63 (-3), .fin false 8 (-3), .nan⟩ := by decide +kernel

/-! ## C09: error bar limit -/

/-- **C09** With a limit `10^k` the error becomes infinite exactly when the rounded-up error
exceeds the limit (or was infinite); otherwise it is the rounded-up error. -/
theorem C09_eb_limit (o : DecimalizeOpts) (k : Int) (x : FpCell) (r : DecCell) (eb0 : Dec)
    (h : decimalizeCell o (some k) x = .ok r)
    (he : createDecimal x.err o.errDigits .ceiling = .ok eb0) :
    (DLt (.fin false 1 k) eb0 → r.err = .inf false) ∧ (¬ DLt (.fin false 1 k) eb0 → r.err = eb0) := by
  obtain ⟨h1, eb0', he', hnn, herr, -⟩ := decimalizeCell_ok h
  rw [he] at he'
  cases he'
  rw [herr]
  unfold clipErr
  by_cases hn : eb0.isNan = true
  · have : eb0 = .nan := by cases eb0 <;> simp_all [Dec.isNan]
    subst this
    simp [DLt, Dec.isNan]
  · have hn' : eb0.isNan = false := by simpa using hn
    have key := not_leNum_iff (.fin false 1 k) eb0 rfl hn'
    simp only [hn', Bool.false_or]
    constructor
    · intro hlt; rw [key.mpr hlt]; simp
    · intro hlt
      have : Dec.leNum eb0 (.fin false 1 k) = true := by
        by_contra hc; exact hlt (key.mp (by simpa using hc))
      rw [this]; simp

/-- **C09** A metric without a limit is never clipped. -/
theorem C09_no_limit (o : DecimalizeOpts) (x : FpCell) (r : DecCell)
    (h : decimalizeCell o none x = .ok r) :
    createDecimal x.err o.errDigits .ceiling = .ok r.err := by
  obtain ⟨h1, eb0, he, hnn, herr, -⟩ := decimalizeCell_ok h
  rw [he, herr]
  unfold clipErr
  congr 1
  cases eb0 with
  | nan => rfl
  | inf b => cases b <;> simp [Dec.leNum]
  | fin a b c => simp [Dec.leNum]

/-- **C09** A clipped cell falls back to `default_digits` for the mean. -/
theorem C09_clipped_mean (o : DecimalizeOpts) (lim : Option Int) (x : FpCell) (r : DecCell)
    (h : decimalizeCell o lim x = .ok r) (hr : r.err = .inf false) :
    createDecimal x.mean o.defaultDigits .halfUp = .ok r.mean := by
  obtain ⟨-, -, -, -, -, hm, -, -⟩ := decimalizeCell_ok h
  rw [hr] at hm
  simpa [cellMean, Dec.isFinite] using hm

/-- C09, concrete boundary: an error of exactly 1 with limit `10^0` is kept, 1.01 is not. -/
example : (decimalizeCell {} (some 0) ⟨.fin false 3 0, .fin false 1 0, .nan⟩).map (·.err) =
      .ok (.fin false 1 0) ∧
    (decimalizeCell {} (some 0) ⟨.fin false 3 0, .fin false 33 (-5), .nan⟩).map (·.err) =
      .ok (.inf false) := by decide +kernel

/-! ## C10: exact failure conditions -/

/-- **C10** Finite mean, finite non-zero error within the limit, valid p-value: the only possible
exception is InvalidOperation, raised exactly when the rounded mean needs more than 28 digits. -/
theorem C10_fails_iff_mean_needs_more_than_28_digits (o : DecimalizeOpts) (lim : Option Int)
    (x : FpCell) (hk : o.pvalDigits ≤ 27) (he : 1 ≤ o.errDigits)
    (hp : x.pval = .nan ∨ ∃ n m e, x.pval = .fin n m e ∧ 0 ≤ fval n m e ∧ fval n m e ≤ 1)
    (n : Bool) (m : Nat) (e : Int) (hx : x.mean = .fin n m e)
    (en : Bool) (ec : Nat) (ee : Int)
    (heb : createDecimal x.err o.errDigits .ceiling = .ok (.fin en ec ee))
    (hec : 0 < sval en ec ee)
    (hlim : ∀ k, lim = some k → sval en ec ee ≤ (10 : ℚ) ^ k)
    (y : ℚ) (hy : RoundsToUnit (10 ^ ee) (fval n m e) y) :
    (10 ^ 28 * (10 : ℚ) ^ ee ≤ |y| ∧ decimalizeCell o lim x = .error .invalidOperation) ∨
    (|y| < 10 ^ 28 * (10 : ℚ) ^ ee ∧ ∃ r, decimalizeCell o lim x = .ok r) := by
  have hec0 : ec ≠ 0 := by rintro rfl; simp [sval] at hec
  have hnn : Dec.leNum (.ofNat 0) (.fin en ec ee) = true := (leNum_zero_fin _ _ _).mpr hec.le
  have hclip : clipErr lim (.fin en ec ee) = .fin en ec ee := by
    unfold clipErr
    rw [if_pos]
    cases lim with
    | none => rfl
    | some k =>
      have : Dec.leNum (.fin en ec ee) (.fin false 1 k) = true := by
        rw [leNum_iff]; simpa [DLe, sval] using hlim k rfl
      simp [this]
  obtain ⟨c, k, hf, hv⟩ := ofFloat_val n m e
  have hR := rescaled_halfUp n c k ee
  rw [hv] at hR
  have hyy := RoundsToUnit.unique hy hR
  have hcm : cellMean o (.fin en ec ee) x.mean =
      if 10 ^ 28 ≤ rescaled .halfUp n c k ee then .error .invalidOperation
      else .ok (.fin n (rescaled .halfUp n c k ee) ee) := by
    unfold cellMean
    rw [if_pos (by simp [Dec.isFinite, Dec.isZero, hec0]), hx, hf, quantize_fin]
  have hu := zpow10_pos ee
  rw [hyy, abs_sval]
  by_cases hbig : 10 ^ 28 ≤ rescaled .halfUp n c k ee
  · left
    refine ⟨mul_le_mul_of_nonneg_right (by exact_mod_cast hbig) hu.le, ?_⟩
    rw [createDecimal_eq, if_pos he] at heb
    injection heb with heb
    rw [decimalizeCell_eq, if_pos he]
    simp only [heb]
    rw [if_pos (by rw [hnn, Bool.or_true]), hclip, hcm, if_pos hbig]
    rfl
  · right
    refine ⟨mul_lt_mul_of_pos_right (by exact_mod_cast not_le.mp hbig) hu, ?_⟩
    obtain ⟨p, hp'⟩ := C06_pval_assert_never_fails o lim x hk hp he (.fin en ec ee) _ heb
      (Or.inr ((leNum_iff _ _).mp hnn)) (by rw [hclip, hcm, if_neg hbig])
    exact ⟨_, hp'⟩

/-- **C10** If the final error bar is zero, infinite or NaN, the cell always converts
(any mean, also infinite or NaN). -/
theorem C10_ok_without_quantum (o : DecimalizeOpts) (lim : Option Int) (x : FpCell)
    (hk : o.pvalDigits ≤ 27) (he : 1 ≤ o.errDigits) (hd : 1 ≤ o.defaultDigits)
    (hp : x.pval = .nan ∨ ∃ n m e, x.pval = .fin n m e ∧ 0 ≤ fval n m e ∧ fval n m e ≤ 1)
    (eb0 : Dec) (heb : createDecimal x.err o.errDigits .ceiling = .ok eb0)
    (hnn : eb0 = .nan ∨ DLe (.ofNat 0) eb0)
    (hz : eb0 = .nan ∨ eb0 = .inf false ∨ (∃ n k, eb0 = .fin n 0 k) ∨
      ∃ k, lim = some k ∧ DLt (.fin false 1 k) eb0) :
    ∃ r, decimalizeCell o lim x = .ok r := by
  have hcm : ((clipErr lim eb0).isFinite && !(clipErr lim eb0).isZero) = false := by
    rcases hz with rfl | rfl | ⟨n, k, rfl⟩ | ⟨k, rfl, hlt⟩
    · rfl
    · cases lim <;> rfl
    · rcases clipErr_cases lim (.fin n 0 k) with h | h <;> rw [h] <;> simp [Dec.isZero, Dec.isFinite]
    · have hnan : eb0.isNan = false := by
        cases eb0 <;> simp_all [DLt, Dec.isNan]
      have := (not_leNum_iff (.fin false 1 k) eb0 rfl hnan).mpr hlt
      unfold clipErr
      simp [hnan, this, Dec.isFinite]
  obtain ⟨p, hp'⟩ := C06_pval_assert_never_fails o lim x hk hp he eb0
    (Dec.pos o.defaultDigits .halfUp (Dec.ofFloat x.mean)) heb hnn (by
      unfold cellMean
      rw [hcm]
      simp only [Bool.false_eq_true, if_false]
      rw [createDecimal_eq, if_pos hd])
  exact ⟨_, hp'⟩

/-- **C10** An infinite mean with a finite non-zero error within the limit raises
InvalidOperation. -/
theorem C10_infinite_mean_fails (o : DecimalizeOpts) (lim : Option Int) (x : FpCell)
    (he : 1 ≤ o.errDigits) (b : Bool) (hx : x.mean = .inf b)
    (en : Bool) (ec : Nat) (ee : Int)
    (heb : createDecimal x.err o.errDigits .ceiling = .ok (.fin en ec ee))
    (hec : 0 < sval en ec ee)
    (hlim : ∀ k, lim = some k → sval en ec ee ≤ (10 : ℚ) ^ k) :
    decimalizeCell o lim x = .error .invalidOperation := by
  have hec0 : ec ≠ 0 := by rintro rfl; simp [sval] at hec
  have hnn : Dec.leNum (.ofNat 0) (.fin en ec ee) = true := (leNum_zero_fin _ _ _).mpr hec.le
  have hclip : clipErr lim (.fin en ec ee) = .fin en ec ee := by
    unfold clipErr
    rw [if_pos]
    cases lim with
    | none => rfl
    | some k =>
      have : Dec.leNum (.fin en ec ee) (.fin false 1 k) = true := by
        rw [leNum_iff]; simpa [DLe, sval] using hlim k rfl
      simp [this]
  rw [createDecimal_eq, if_pos he] at heb
  injection heb with heb
  rw [decimalizeCell_eq, if_pos he]
  simp only [heb]
  rw [if_pos (by rw [hnn, Bool.or_true]), hclip]
  unfold cellMean
  rw [if_pos (by simp [Dec.isFinite, Dec.isZero, hec0]), hx]
  rfl

/-- **C10** A negative error (finite or infinite) raises AssertionError. -/
theorem C10_negative_error_rejected (o : DecimalizeOpts) (lim : Option Int) (x : FpCell)
    (he : 1 ≤ o.errDigits)
    (hx : x.err = .inf true ∨ ∃ n m e, x.err = .fin n m e ∧ fval n m e < 0) :
    decimalizeCell o lim x = .error .assertion := by
  rw [decimalizeCell_eq, if_pos he]
  simp only []
  rw [if_neg]
  rcases hx with hx | ⟨n, m, e, hx, hneg⟩
  · rw [hx]; simp [Dec.pos, Dec.ofFloat, Dec.isNan, Dec.leNum, Dec.ofNat]
  · obtain ⟨a, c, k, hc, hlt, hr⟩ := C04_create_decimal_ceiling n m e o.errDigits he
    rw [createDecimal_eq, if_pos he] at hc
    injection hc with hc
    rw [hx, hc]
    simp only [Dec.isNan, Bool.false_or, leNum_zero_fin, not_le]
    -- some representable negative number is not below the float
    obtain ⟨j, hj⟩ : ∃ j : Nat, fval n m e ≤ -(10 : ℚ) ^ (-(j : Int)) := by
      obtain ⟨j, hj⟩ := exists_pow_lt_of_lt_one (neg_pos.mpr hneg) (by norm_num : (1 / 10 : ℚ) < 1)
      refine ⟨j, ?_⟩
      rw [zpow_neg, zpow_natCast, ← one_div, ← one_div_pow]
      linarith
    have hg : SigGrid o.errDigits (-(10 : ℚ) ^ (-(j : Int))) :=
      ⟨true, 1, -(j : Int), Nat.one_lt_pow (by omega) (by norm_num), by simp [sval]⟩
    have := hr.2 ⟨hg, hj⟩
    linarith [zpow10_pos (-(j : Int))]

/-- C10, concrete: mean 1e27 with error 0.05 (needs 29 digits) fails; with error 0.5 it converts. -/
example : decimalizeCell {} none ⟨.fin false (10 ^ 27) 0, .fin false 1 (-5), .nan⟩ =
      .error .invalidOperation ∧
    decimalizeCell {} none ⟨.fin false (10 ^ 26) 0, .fin false 1 (-1), .nan⟩ =
      .ok ⟨.fin false (10 ^ 27) (-1), .fin false 5 (-1), .nan⟩ := by decide +kernel

/-! ## The whole table -/

/-- `decimalize` converts every cell independently: metrics in sorted order without repetition,
methods in row order, each cell the conversion of the cell of the same labels. -/
theorem decimalize_table {κ : Type} [LinearOrder κ] (o : DecimalizeOpts) (lim : κ → Option Int)
    (t : Table κ FpCell) (out : List (κ × List (κ × DecCell)))
    (h : decimalize o lim t = .ok out) :
    1 ≤ o.pvalDigits ∧ out.map Prod.fst = levels t.metrics ∧
      ∀ mc ∈ out, mc.2.map Prod.fst = t.methods ∧
        ∀ c ∈ mc.2, decimalizeCell o (lim mc.1) (t.cell c.1 mc.1) = .ok c.2 := by
  unfold decimalize at h
  rw [pyAssert_bind] at h
  split at h
  · rename_i h1
    refine ⟨by simpa using h1, ?_⟩
    rw [mapM_ok_iff] at h
    generalize levels t.metrics = lv at h
    induction h with
    | nil => simp
    | @cons metric mc l₁ l₂ hmc _ ih =>
      rw [bind_ok_iff] at hmc
      obtain ⟨col, hcol, hmc⟩ := hmc
      rw [pure_eq_ok] at hmc
      cases hmc
      refine ⟨by simp [ih.1], ?_⟩
      intro mc' hm
      rcases List.mem_cons.mp hm with rfl | hm
      · rw [mapM_ok_iff] at hcol
        clear ih hm
        generalize t.methods = ms at hcol
        induction hcol with
        | nil => simp
        | @cons a b l₁ l₂ hb _ ih2 =>
          rw [bind_ok_iff] at hb
          obtain ⟨d, hd, hb⟩ := hb
          rw [pure_eq_ok] at hb
          cases hb
          refine ⟨by simpa using ih2.1, ?_⟩
          intro c hc
          rcases List.mem_cons.mp hc with rfl | hc
          · exact hd
          · exact ih2.2 c hc
      · exact ih.2 mc' hm
  · cases h

/-- **C10** `decimalize` of a table succeeds exactly when at least one p-value digit is asked for and every cell converts; no p-value
digit is an AssertionError.  The result has the metrics in sorted order without repetition, the methods in row order, and each
cell is the conversion of the cell of the same labels. -/
theorem C10_table {κ : Type} [LinearOrder κ] (o : DecimalizeOpts) (lim : κ → Option Int) (t : Table κ FpCell) :
    (o.pvalDigits = 0 → decimalize o lim t = .error .assertion) ∧
    ((∃ out, decimalize o lim t = .ok out) ↔ 1 ≤ o.pvalDigits ∧
      ∀ metric ∈ t.metrics, ∀ method ∈ t.methods, ∃ c, decimalizeCell o (lim metric) (t.cell method metric) = .ok c) ∧
    ∀ out, decimalize o lim t = .ok out → out.map Prod.fst = levels t.metrics ∧
      ∀ mc ∈ out, List.Forall₂ (fun method c => c.1 = method ∧
        decimalizeCell o (lim mc.1) (t.cell method mc.1) = .ok c.2) t.methods mc.2 := by
  have hlev : ∀ m, m ∈ levels t.metrics ↔ m ∈ t.metrics := by
    intro m
    unfold levels
    rw [(List.perm_insertionSort _ _).mem_iff, List.mem_dedup]
  have hres : ∀ out, decimalize o lim t = .ok out → out.map Prod.fst = levels t.metrics ∧
      ∀ mc ∈ out, List.Forall₂ (fun method c => c.1 = method ∧
        decimalizeCell o (lim mc.1) (t.cell method mc.1) = .ok c.2) t.methods mc.2 := by
    intro out h
    obtain ⟨-, h2, h3⟩ := decimalize_table o lim t out h
    refine ⟨h2, fun mc hmc => ?_⟩
    obtain ⟨h4, h5⟩ := h3 mc hmc
    rw [← h4, List.forall₂_map_left_iff, List.forall₂_same]
    exact fun c hc => ⟨rfl, h5 c hc⟩
  refine ⟨fun h0 => ?_, ⟨?_, ?_⟩, hres⟩
  · unfold decimalize
    rw [pyAssert_bind, if_neg (by simp [h0])]
  · rintro ⟨out, h⟩
    obtain ⟨h1, h2⟩ := hres out h
    refine ⟨(decimalize_table o lim t out h).1, fun metric hm method hmeth => ?_⟩
    rw [← hlev, ← h1] at hm
    obtain ⟨mc, hmc, rfl⟩ := List.mem_map.mp hm
    obtain ⟨i, hi, rfl⟩ := List.getElem_of_mem hmeth
    have := h2 mc hmc
    rw [List.forall₂_iff_get] at this
    have hi' : i < mc.2.length := by rw [← this.1]; exact hi
    exact ⟨_, (this.2 i hi hi').2⟩
  · rintro ⟨h1, h2⟩
    have hex : ∀ metric method, ∃ c, metric ∈ t.metrics → method ∈ t.methods →
        decimalizeCell o (lim metric) (t.cell method metric) = .ok c := by
      intro metric method
      by_cases hm : metric ∈ t.metrics ∧ method ∈ t.methods
      · obtain ⟨c, hc⟩ := h2 metric hm.1 method hm.2
        exact ⟨c, fun _ _ => hc⟩
      · exact ⟨⟨.nan, .nan, .nan⟩, fun a b => absurd ⟨a, b⟩ hm⟩
    choose g hg using hex
    refine ⟨(levels t.metrics).map fun metric => (metric, t.methods.map fun method => (method, g metric method)), ?_⟩
    unfold decimalize
    rw [pyAssert_bind, if_pos (by simpa using h1)]
    refine mapM_eq_ok_map _ _ _ fun metric hm => ?_
    rw [mapM_eq_ok_map _ (fun method => (method, g metric method)) t.methods fun method hmeth => by
      rw [hg metric method ((hlev metric).mp hm) hmeth]; rfl]
    rfl

/-- C10, concrete: two methods, one metric. -/
example : decimalize {} (fun _ => none) ⟨["A".toList, "B".toList], ["NLL".toList], fun _ _ =>
      ⟨.fin false 37 (-1), .fin false 1 (-4), .fin false 1 (-14)⟩⟩ =
    .ok [("NLL".toList, [("A".toList, ⟨.fin false 18500 (-3), .fin false 63 (-3), .fin false 1 (-4)⟩),
      ("B".toList, ⟨.fin false 18500 (-3), .fin false 63 (-3), .fin false 1 (-4)⟩)])] := by decide +kernel

end Mlp.Props
