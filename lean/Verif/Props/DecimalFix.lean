import Verif.Props.DecimalLimits

/-! # C144: what happens at the limits

The three theorems say what rounding to the context does for every non-zero number: above the limits, below them, and between. -/

namespace Mlp.Props
open Mlp Spec Sciprint Dec

theorem roundOff_tiny (m : Rounding) (neg : Bool) {c d : Nat} (hc : c ≠ 0) (h : ndig c < d) : roundOff m neg c d = roundOff m neg 1 1 := by
  have h1 := lt_pow_ndig c
  have h2 : 10 * 10 ^ ndig c ≤ 10 ^ d := by
    rw [← pow_succ']
    exact Nat.pow_le_pow_right (by norm_num) h
  have hq : c / 10 ^ d = 0 := Nat.div_eq_of_lt (by omega)
  have hr : c % 10 ^ d = c := Nat.mod_eq_of_lt (by omega)
  unfold roundOff
  rw [hq, hr]
  cases m <;> dsimp only
  · simp [hc]
  · rw [if_neg (by omega)]; rfl
  · rw [if_neg (by omega), if_neg (by omega)]; rfl

/-- The number of digits after rounding. -/
theorem ndig_roundOff (m : Rounding) (neg : Bool) {c prec : Nat} (hp : 1 ≤ prec) (h : prec < ndig c) :
    ndig (roundOff m neg c (ndig c - prec)) = prec ∨
      prec < ndig (roundOff m neg c (ndig c - prec)) ∧ ndig (roundOff m neg c (ndig c - prec) / 10) = prec := by
  have hc : c ≠ 0 := by
    rintro rfl
    rw [ndig_zero] at h
    omega
  obtain ⟨hlo, hhi⟩ := roundOff_le_succ m neg c (ndig c - prec)
  have h1 : c / 10 ^ (ndig c - prec) < 10 ^ prec := by
    rw [Nat.div_lt_iff_lt_mul (by positivity), ← pow_add, show prec + (ndig c - prec) = ndig c by omega]
    exact lt_pow_ndig c
  have h2 : 10 ^ (prec - 1) ≤ c / 10 ^ (ndig c - prec) := by
    rw [Nat.le_div_iff_mul_le (by positivity), ← pow_add, show prec - 1 + (ndig c - prec) = ndig c - 1 by omega]
    exact pow_ndig_le c hc
  generalize roundOff m neg c (ndig c - prec) = q at *
  have hge : prec ≤ ndig q := by
    rcases Nat.lt_or_ge 1 prec with h3 | h3
    · have := (lt_ndig_iff q (prec - 1) (by omega)).2 (by omega)
      omega
    · have := ndig_pos q
      omega
  rcases Nat.lt_or_ge prec (ndig q) with h3 | h3
  · refine .inr ⟨h3, ?_⟩
    have hq : q = 10 ^ prec := by
      have := (lt_ndig_iff q prec hp).1 h3
      omega
    have hq' : q / 10 = 10 ^ (prec - 1) := by
      rw [hq, show prec = prec - 1 + 1 by omega, pow_succ]
      simp
    rw [hq']
    apply le_antisymm
    · rw [ndig_le_iff _ _ hp]
      exact Nat.pow_lt_pow_right (by norm_num) (by omega)
    · rcases Nat.lt_or_ge 1 prec with h4 | h4
      · have := (lt_ndig_iff (10 ^ (prec - 1)) (prec - 1) (by omega)).2 le_rfl
        omega
      · have := ndig_pos (10 ^ (prec - 1))
        omega
  · exact .inl (le_antisymm h3 hge)

/-- The leading place after rounding with unbounded exponents. -/
theorem adjusted_fix (m : Rounding) (neg : Bool) {prec c : Nat} (hp : 1 ≤ prec) (e : Int) :
    adjusted (fix prec m (.fin neg c e)) = e + ndig c - 1 ∨
      prec < ndig c ∧ prec < ndig (roundOff m neg c (ndig c - prec)) ∧ adjusted (fix prec m (.fin neg c e)) = e + ndig c := by
  rw [fix]
  by_cases h : ndig c ≤ prec
  · rw [if_pos h]; exact .inl rfl
  · rw [if_neg h]
    dsimp only
    rcases ndig_roundOff m neg hp (show prec < ndig c by omega) with h1 | ⟨h1, h2⟩
    · rw [if_neg (by omega)]
      left
      simp only [adjusted]
      omega
    · rw [if_pos h1]
      right
      refine ⟨by omega, h1, ?_⟩
      simp only [adjusted]
      omega

/-- **C144, above the limits.**  Rounding to the context raises Overflow exactly for the numbers which, rounded to `prec` digits, are `10^1000000` or
more in magnitude. -/
theorem C144_overflow {prec : Nat} (hp : 1 ≤ prec) (m : Rounding) (neg : Bool) {c : Nat} (hc : c ≠ 0) (e : Int) :
    fixL prec m (.fin neg c e) = .error .decimalOverflow ↔ 999999 < adjusted (fix prec m (.fin neg c e)) := by
  rw [fixL, if_neg hc]
  dsimp only
  have ha := adjusted_fix m neg (c := c) hp e
  have hpos := ndig_pos c
  by_cases h1 : etop prec < ndig c + e - prec
  · rw [if_pos h1]
    unfold etop emax at h1
    refine ⟨fun _ => ?_, fun _ => rfl⟩
    omega
  · rw [if_neg h1]
    by_cases h2 : ndig c + e - prec < etiny prec
    · rw [if_pos h2]
      unfold etop emax at h1
      unfold etiny emax at h2
      refine iff_of_false ?_ (by omega)
      split_ifs <;> first | (intro h; cases h; done) | skip
      all_goals exact absurd ‹etop prec < _› (by unfold etop etiny emax; omega)
    · rw [if_neg h2]
      by_cases h3 : e < ndig c + e - prec
      · have e4 : ¬ ((ndig c : Int) + e - (ndig c + e - prec) < 0) := by omega
        have e3 : ((ndig c : Int) + e - prec - e).toNat = ndig c - prec := by omega
        rw [if_pos h3, e3]
        simp only [if_neg e4]
        by_cases hq : prec < ndig (roundOff m neg c (ndig c - prec))
        · rw [if_pos hq]
          dsimp only
          have ha' : adjusted (fix prec m (.fin neg c e)) = e + ndig c := by
            rcases ndig_roundOff m neg hp (show prec < ndig c by omega) with h5 | ⟨-, h5⟩
            · omega
            · rw [fix, if_neg (by omega)]
              dsimp only
              rw [if_pos hq]
              simp only [adjusted]
              omega
          rw [ha']
          by_cases h6 : etop prec < ndig c + e - prec + 1
          · rw [if_pos h6]
            unfold etop emax at h6
            exact iff_of_true rfl (by omega)
          · rw [if_neg h6]
            unfold etop emax at h6
            exact iff_of_false (by simp) (by omega)
        · rw [if_neg hq]
          dsimp only
          rw [if_neg h1]
          unfold etop emax at h1
          exact iff_of_false (by simp) (by omega)
      · rw [if_neg h3]
        unfold etop emax at h1
        exact iff_of_false (by simp) (by omega)

/-- **C144, below the limits.**  A number below `10^-999999` in magnitude is rounded to a multiple of `10^(-999998 - prec)`, unless it is one. -/
theorem C144_underflow {prec : Nat} (hp : 1 ≤ prec) (m : Rounding) (neg : Bool) {c : Nat} (hc : c ≠ 0) {e : Int}
    (h : adjusted (.fin neg c e) < -999999) :
    fixL prec m (.fin neg c e) = .ok (if -999998 - prec ≤ e then .fin neg c e
      else .fin neg (roundOff m neg c (-999998 - prec - e).toNat) (-999998 - prec)) := by
  simp only [adjusted] at h
  rw [fixL, if_neg hc]
  dsimp only
  have et : etiny prec = -999998 - prec := by unfold etiny emax; omega
  have h0 : (ndig c : Int) + e - prec < -999998 - prec := by omega
  rw [if_neg (by unfold etop emax; omega), et]
  simp only [if_pos h0]
  by_cases h1 : -999998 - (prec : Int) ≤ e
  · rw [if_neg (by omega), if_pos h1]
  · have hq : (if (ndig c : Int) + e - (-999998 - prec) < 0 then roundOff m neg 1 1 else roundOff m neg c (-999998 - prec - e).toNat) =
        roundOff m neg c (-999998 - prec - e).toNat := by
      split_ifs with h2
      · exact (roundOff_tiny m neg hc (by omega)).symm
      · rfl
    have hd : ¬ prec < ndig (roundOff m neg c (-999998 - prec - e).toNat) := by
      obtain ⟨-, hhi⟩ := roundOff_le_succ m neg c (-999998 - prec - e).toNat
      have hde : ((-999998 - prec - e).toNat : Int) = -999998 - prec - e := Int.toNat_of_nonneg (by omega)
      generalize (-999998 - prec - e).toNat = d at *
      have h3 : c / 10 ^ d < 10 ^ (prec - 1) := by
        rw [Nat.div_lt_iff_lt_mul (by positivity), ← pow_add]
        exact (lt_pow_ndig c).trans_le (Nat.pow_le_pow_right (by norm_num) (by omega))
      have h4 : 10 ^ (prec - 1) < 10 ^ prec := Nat.pow_lt_pow_right (by norm_num) (by omega)
      have := (ndig_le_iff (roundOff m neg c d) prec hp).2 (by omega)
      omega
    simp only [hq, if_neg hd]
    rw [if_pos (by omega), if_neg h1, if_neg (by unfold etop emax; omega)]

/-- **C144, between the limits.**  Every other number is rounded as with unbounded exponents. -/
theorem C144_normal {prec : Nat} (hp : 1 ≤ prec) (m : Rounding) (neg : Bool) {c : Nat} (hc : c ≠ 0) {e : Int} (h : -999999 ≤ adjusted (.fin neg c e))
    (h' : adjusted (fix prec m (.fin neg c e)) ≤ 999999) : fixL prec m (.fin neg c e) = .ok (fix prec m (.fin neg c e)) := by
  have hno : fixL prec m (.fin neg c e) ≠ .error .decimalOverflow := fun h1 => by
    have := (C144_overflow hp m neg hc e).1 h1
    omega
  simp only [adjusted] at h
  have e2 : ¬ ((ndig c : Int) + e - prec < etiny prec) := by unfold etiny emax; omega
  rw [fixL, if_neg hc] at hno ⊢
  dsimp only at hno ⊢
  simp only [if_neg e2] at hno ⊢
  by_cases h1 : etop prec < ndig c + e - prec
  · rw [if_pos h1] at hno
    exact absurd rfl hno
  rw [if_neg h1] at hno ⊢
  rw [fix]
  by_cases h3 : e < ndig c + e - prec
  · have e4 : ¬ ((ndig c : Int) + e - (ndig c + e - prec) < 0) := by omega
    have e3 : ((ndig c : Int) + e - prec - e).toNat = ndig c - prec := by omega
    rw [if_pos h3, e3] at hno ⊢
    simp only [if_neg e4] at hno ⊢
    rw [if_neg (show ¬ ndig c ≤ prec by omega)]
    have e5 : e + ((ndig c - prec : Nat) : Int) = ndig c + e - prec := by omega
    split_ifs at hno ⊢ with h5
    · exact absurd rfl hno
    · simp only [Except.ok.injEq, Dec.fin.injEq, true_and]
      omega
    · simp only [Except.ok.injEq, Dec.fin.injEq, true_and]
      omega
  · rw [if_neg h3, if_pos (by omega)]

/-- **C144, zero.**  The exponent of a zero is moved between `-999998 - prec` and `999999`. -/
theorem C144_zero (prec : Nat) (m : Rounding) (neg : Bool) (e : Int) :
    fixL prec m (.fin neg 0 e) = .ok (.fin neg 0 (if e < -999998 - prec then -999998 - prec else if 999999 < e then 999999 else e)) := by
  rw [fixL, if_pos rfl]
  unfold etiny emax
  congr 2
  split_ifs <;> omega

theorem fixL_fits (m : Rounding) (neg : Bool) {c : Nat} {e : Int} (hd : ndig c ≤ 28) (h1 : -1000026 ≤ e) (h2 : adjusted (.fin neg c e) ≤ 999999) :
    fixL 28 m (.fin neg c e) = .ok (.fin neg c e) := by
  have hpos := ndig_pos c
  have e1 : ndig c + e - 1 ≤ 999999 := by simp only [adjusted] at h2; omega
  by_cases hc : c = 0
  · subst hc
    rw [C144_zero]
    have : ¬ (999999 < e) := by rw [ndig_zero] at e1; omega
    rw [if_neg (by push_cast; omega), if_neg this]
  have hf : fix 28 m (.fin neg c e) = .fin neg c e := by rw [fix, if_pos (by omega)]
  by_cases h : -999999 ≤ adjusted (.fin neg c e)
  · rw [C144_normal (by norm_num) m neg hc h (by rw [hf]; exact h2), hf]
  · rw [C144_underflow (by norm_num) m neg hc (by omega), if_pos (by push_cast; omega)]

/-- **C144, quantize.**  `quantize` with the limits of the default context: the target exponent must lie between -1000026 and 999999, and neither the number nor
the result may be `10^1000000` or more; otherwise the result is that with unbounded exponents. -/
theorem C144_quantize (m : Rounding) (neg neg' : Bool) (c c' : Nat) (e e' : Int) :
    quantizeL m (.fin neg c e) (.fin neg' c' e') =
      if e' < -1000026 ∨ 999999 < e' ∨ (c ≠ 0 ∧ 999999 < adjusted (.fin neg c e)) then .error .invalidOperation
      else quantize m (.fin neg c e) (.fin neg' c' e') >>= fun r => if 999999 < adjusted r then .error .invalidOperation else .ok r := by
  have het : etiny ctxPrec = -1000026 := by decide
  have hem : emax = 999999 := rfl
  rw [quantizeL, quantize, het, hem]
  by_cases h1 : e' < -1000026 ∨ 999999 < e'
  · rw [if_pos h1, if_pos (by omega)]
  rw [if_neg h1]
  by_cases hc : c = 0
  · subst hc
    rw [if_pos rfl, if_pos rfl, if_neg (by simp; omega)]
    have ha : adjusted (.fin neg 0 e') ≤ 999999 := by simp only [adjusted, ndig_zero]; omega
    change _ = if 999999 < adjusted (.fin neg 0 e') then _ else _
    rw [if_neg (by omega)]
    exact fixL_fits m neg (by rw [ndig_zero]; norm_num) (by omega) ha
  rw [if_neg hc, if_neg hc]
  by_cases h2 : 999999 < e + ndig c - 1
  · rw [if_pos h2, if_pos (Or.inr (Or.inr ⟨hc, h2⟩))]
  have h2' : ¬ (e' < -1000026 ∨ 999999 < e' ∨ (c ≠ 0 ∧ 999999 < adjusted (.fin neg c e))) := by simp only [adjusted]; omega
  rw [if_neg h2, if_neg h2']
  by_cases h3 : (ctxPrec : Int) < (e + ndig c - 1) - e' + 1
  · rw [if_pos h3, if_pos h3]; rfl
  rw [if_neg h3, if_neg h3]
  have hr : ∃ n₁ c₁, rescale m neg c e e' = .fin n₁ c₁ e' := by
    unfold rescale
    split_ifs <;> exact ⟨_, _, rfl⟩
  obtain ⟨n₁, c₁, hr⟩ := hr
  rw [hr]
  dsimp only
  by_cases hd : ctxPrec < ndig c₁
  · rw [if_pos hd, if_pos hd]
    split <;> rfl
  rw [if_neg hd, if_neg hd]
  change _ = if 999999 < adjusted (.fin n₁ c₁ e') then _ else _
  by_cases h4 : 999999 < adjusted (.fin n₁ c₁ e')
  · rw [if_pos h4, if_pos h4]
  · rw [if_neg h4, if_neg h4]
    exact fixL_fits m n₁ (by unfold ctxPrec at hd; omega) (by omega) (by omega)

/-- **C144, quantize with NaN or infinity** is not affected by limits. -/
theorem C144_quantize_special (m : Rounding) {x y : Dec} (h : x.isFinite = false ∨ y.isFinite = false) : quantizeL m x y = quantize m x y := by
  rcases x with ⟨neg, c, e⟩ | n | _ <;> rcases y with ⟨neg', c', e'⟩ | n' | _ <;> first | rfl | (simp [Dec.isFinite] at h)

/-- **C144, scaleb.**  `scaleb` in the default context: shifts beyond ±2000054 are invalid.  A number of at most 28 digits that stays between the limits only
gets another exponent, one that is moved above them raises Overflow. -/
theorem C144_scaleb (k : Int) (neg : Bool) (c : Nat) (e : Int) :
    (2000054 < |k| → scalebL k (.fin neg c e) = .error .invalidOperation ∧ scalebL k (.inf neg) = .error .invalidOperation) ∧
    (|k| ≤ 2000054 → ndig c ≤ 28 → (-1000026 ≤ e + k → adjusted (.fin neg c e) + k ≤ 999999 → scalebL k (.fin neg c e) = .ok (.fin neg c (e + k))) ∧
      (c ≠ 0 → 999999 < adjusted (.fin neg c e) + k → scalebL k (.fin neg c e) = .error .decimalOverflow)) ∧
    (|k| ≤ 2000054 → scalebL k (.inf neg) = .ok (.inf neg)) ∧ scalebL k .nan = .ok .nan := by
  have hlim : 2 * (emax + ctxPrec) = 2000054 := by decide
  have hiff : (k < -(2 * (emax + ctxPrec)) ∨ 2 * (emax + ctxPrec) < k) ↔ 2000054 < |k| := by
    rw [hlim, lt_abs]
    omega
  refine ⟨fun h => ?_, fun h hd => ?_, fun h => ?_, rfl⟩
  · rw [scalebL, scalebL, if_pos (hiff.2 h), if_pos (hiff.2 h)]
    exact ⟨rfl, rfl⟩
  · rw [scalebL, if_neg fun h' => absurd (hiff.1 h') (by omega)]
    have ha : adjusted (.fin neg c (e + k)) = adjusted (.fin neg c e) + k := by simp only [adjusted]; omega
    refine ⟨fun h1 h2 => fixL_fits _ _ hd h1 (by omega), fun hc h2 => ?_⟩
    have hf : fix 28 .halfEven (.fin neg c (e + k)) = .fin neg c (e + k) := by rw [fix, if_pos (by omega)]
    exact (C144_overflow (prec := 28) (by norm_num) .halfEven neg hc (e + k)).2 (by rw [hf]; omega)
  · rw [scalebL, if_neg fun h' => absurd (hiff.1 h') (by omega)]

/-! Near the limits: `9.99E+999999` rounded to one digit overflows, `1.23E-1000006` keeps one digit in a context of eight digits, `9.9E+5` is an ordinary case. -/

example : fixL 1 .halfEven (.fin false 999 999997) = .error .decimalOverflow := by
  rw [C144_overflow (by norm_num) _ _ (by norm_num)]
  decide +kernel

example : fixL 8 .halfEven (.fin false 123 (-1000008)) = .ok (.fin false 1 (-1000006)) := by
  rw [C144_underflow (by norm_num) _ _ (by norm_num) (by decide +kernel)]
  decide +kernel

example : fixL 1 .ceiling (.fin false 99 4) = .ok (.fin false 1 6) := by
  rw [C144_normal (by norm_num) _ _ (by norm_num) (by decide +kernel) (by decide +kernel)]
  decide +kernel

example : fixL 28 .halfEven (.fin true 0 (-2000000)) = .ok (.fin true 0 (-1000026)) := by
  rw [C144_zero]
  decide

example : quantizeL .halfUp (.fin false 15 (-1)) (.fin false 1 0) = .ok (.fin false 2 0) ∧
    quantizeL .halfUp (.fin false 15 (-1)) (.fin false 1 (-1000027)) = .error .invalidOperation ∧
    quantizeL .halfUp (.fin false 99999 999995) (.fin false 1 999999) = .error .invalidOperation := by
  refine ⟨?_, ?_, ?_⟩ <;> rw [C144_quantize] <;> decide +kernel

example : scalebL 6 (.fin false 1234 (-2)) = .ok (.fin false 1234 4) ∧ scalebL 1000000 (.fin false 1234 (-2)) = .error .decimalOverflow ∧
    scalebL 2000055 (.fin false 0 0) = .error .invalidOperation :=
  ⟨((C144_scaleb 6 false 1234 (-2)).2.1 (by norm_num) (by decide +kernel)).1 (by norm_num) (by decide +kernel),
    ((C144_scaleb 1000000 false 1234 (-2)).2.1 (by norm_num) (by decide +kernel)).2 (by norm_num) (by decide +kernel),
    ((C144_scaleb 2000055 false 0 0).1 (by norm_num)).1⟩

end Mlp.Props
