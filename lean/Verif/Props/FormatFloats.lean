import Verif.Props.FormatOk

/-! # Property C118 in terms of the numbers in the table -/

namespace Mlp.Props
open Mlp Spec Sciprint Lemmas

/-- The error bar of a cell is not used: NaN, infinite, zero, or above the limit. -/
def UnusedErr (lim : Option Int) (x : FpCell) : Prop :=
  x.err = .nan ∨ x.err = .inf false ∨
    ∃ n m e, x.err = .fin n m e ∧ (fval n m e = 0 ∨ ∃ k, lim = some k ∧ (10 : ℚ) ^ k < fval n m e)

/-- The p-value is NaN or between 0 and 1. -/
def GoodP (x : FpCell) : Prop :=
  x.pval = .nan ∨ ∃ n m e, x.pval = .fin n m e ∧ 0 ≤ fval n m e ∧ fval n m e ≤ 1

theorem ofFloat_exp (neg : Bool) (m : Nat) (e : Int) {n : Bool} {c : Nat} {k : Int}
    (h : Dec.ofFloat (.fin neg m e) = .fin n c k) : k ≤ 0 := by
  unfold Dec.ofFloat at h
  by_cases h0 : 0 ≤ e
  · simp only [h0, if_true] at h; cases h; exact le_refl _
  · simp only [h0, if_false] at h; cases h; omega

/-- Where the last digit of a rounded float is. -/
theorem createDecimal_exp {neg : Bool} {m : Nat} {e : Int} {d : Nat} {md : Rounding} {n : Bool} {c : Nat} {k : Int}
    (hd : 1 ≤ d) (h : createDecimal (.fin neg m e) d md = .ok (.fin n c k)) :
    (k ≤ 0 → |sval n c k| ≤ 10 ^ d - 1) ∧ (0 < k → (10 : ℚ) ^ d ≤ |sval n c k|) := by
  obtain ⟨c0, k0, hf, -⟩ := ofFloat_val neg m e
  have hk0 := ofFloat_exp _ _ _ hf
  rw [createDecimal_eq, if_pos hd, hf, pos_fin] at h
  injection h with h
  generalize (if c0 = 0 then false else neg) = s at h
  obtain ⟨c', e', hfix, hlt, -⟩ := fix_spec d hd md s c0 k0
  have hcc : c' = c ∧ e' = k := by rw [hfix] at h; cases h; exact ⟨rfl, rfl⟩
  obtain ⟨rfl, rfl⟩ := hcc
  rw [abs_sval]
  constructor
  · intro hle
    have h1 : (10 : ℚ) ^ e' ≤ 1 := zpow_le_one_of_nonpos₀ (by norm_num) hle
    have h2 : (c' : ℚ) ≤ 10 ^ d - 1 := by
      have : c' + 1 ≤ 10 ^ d := hlt
      have : ((c' + 1 : ℕ) : ℚ) ≤ ((10 ^ d : ℕ) : ℚ) := by exact_mod_cast this
      push_cast at this; linarith
    have h3 : (0 : ℚ) ≤ c' := by positivity
    calc (c' : ℚ) * 10 ^ e' ≤ c' * 1 := by gcongr
      _ ≤ _ := by linarith
  · intro hpos
    have hfull : 10 ^ (d - 1) ≤ c' := by
      have hnd : ¬ ndig c0 ≤ d := by
        intro hle
        simp only [Dec.fix, hle, if_true] at hfix
        cases hfix
        omega
      have hc0 : c0 ≠ 0 := by rintro rfl; rw [ndig_zero] at hnd; omega
      have hq : 10 ^ (d - 1) ≤ roundOff md s c0 (ndig c0 - d) := by
        refine le_trans ?_ (roundOff_le_succ md s c0 _).1
        rw [Nat.le_div_iff_mul_le (by positivity), ← pow_add]
        have h3 : d - 1 + (ndig c0 - d) = ndig c0 - 1 := by omega
        rw [h3]; exact pow_ndig_le c0 hc0
      simp only [Dec.fix, hnd, if_false] at hfix
      split at hfix
      · rename_i hgt
        cases hfix
        rw [Nat.le_div_iff_mul_le (by norm_num), ← pow_succ]
        have h4 : d - 1 + 1 = d := by omega
        rw [h4]
        by_contra hcon
        have := (ndig_le_iff _ d hd).mpr (not_le.mp hcon)
        omega
      · cases hfix; exact hq
    have h1 : (10 : ℚ) ^ (1 : ℤ) ≤ 10 ^ e' := zpow_le_zpow_right₀ (by norm_num) (by omega)
    have h2 : ((10 ^ (d - 1) : ℕ) : ℚ) ≤ c' := by exact_mod_cast hfull
    push_cast at h2
    have h3 : (10 : ℚ) ^ d = 10 ^ (d - 1) * 10 := by rw [← pow_succ]; congr 1; omega
    rw [h3]
    rw [zpow_one] at h1
    have : (0 : ℚ) ≤ 10 ^ (d - 1) := by positivity
    exact mul_le_mul h2 h1 (by norm_num) (by positivity)

theorem grid_nines (d : Nat) (s : Bool) : SigGrid d (sval s (10 ^ d - 1) 0) :=
  ⟨s, _, 0, Nat.sub_lt (by positivity) (by norm_num), rfl⟩

theorem grid_power (d : Nat) (hd : 1 ≤ d) (s : Bool) (k : Int) : SigGrid d (sval s 1 k) :=
  ⟨s, 1, k, Nat.one_lt_pow (by omega) (by norm_num), rfl⟩

/-- Rounding up two digits: the last digit is left of the units exactly above 99. -/
theorem ceiling_exp {neg : Bool} {m : Nat} {e : Int} {n : Bool} {c : Nat} {k : Int} (hpos : 0 < fval neg m e)
    (h : createDecimal (.fin neg m e) 2 .ceiling = .ok (.fin n c k)) : k ≤ 0 ↔ fval neg m e ≤ 99 := by
  obtain ⟨h1, h2⟩ := createDecimal_exp (by norm_num) h
  obtain ⟨n', c', k', h3, -, h4⟩ := C04_create_decimal_ceiling neg m e 2 (by norm_num)
  rw [h] at h3; cases h3
  have hy : 0 < sval n c k := lt_of_lt_of_le hpos h4.1.2
  rw [abs_of_pos hy] at h1 h2
  constructor
  · intro hk
    have := h1 hk
    have h5 := h4.1.2
    norm_num at this
    linarith
  · intro hle
    by_contra hcon
    have h5 := h2 (by omega)
    have h6 := h4.2 ⟨grid_nines 2 false, by simpa [sval] using hle⟩
    norm_num [sval] at h6 h5
    linarith

/-- Rounding to five digits: the last digit is left of the units exactly from 99999.5. -/
theorem halfUp_exp {neg : Bool} {m : Nat} {e : Int} {n : Bool} {c : Nat} {k : Int}
    (h : createDecimal (.fin neg m e) 5 .halfUp = .ok (.fin n c k)) : k ≤ 0 ↔ |fval neg m e| < 99999 + 1 / 2 := by
  obtain ⟨h1, h2⟩ := createDecimal_exp (by norm_num) h
  obtain ⟨n', c', k', h3, -, h4⟩ := C04_create_decimal_half_up neg m e 5 (by norm_num)
  rw [h] at h3; cases h3
  generalize fval neg m e = x at *
  generalize sval n c k = y at *
  have habs : ∀ a b : ℚ, |a| - |b| ≤ |a - b| := abs_sub_abs_le_abs_sub
  constructor
  · intro hk
    have hy := h1 hk
    by_contra hcon
    push Not at hcon
    obtain ⟨s, hs⟩ : ∃ s : Bool, sval s 1 5 = if 0 ≤ x then (100000 : ℚ) else -100000 := by
      by_cases h0 : 0 ≤ x
      · exact ⟨false, by simp [sval, h0]; norm_num⟩
      · exact ⟨true, by simp [sval, h0]; norm_num⟩
    have hz := h4.2 _ (grid_power 5 (by norm_num) s 5)
    have hzx : |sval s 1 5 - x| = |100000 - (|x|)| := by
      rw [hs]
      split
      · rename_i h0; rw [abs_of_nonneg h0]
      · rename_i h0; rw [abs_of_neg (not_le.mp h0), ← abs_neg]; ring_nf
    have hza : |sval s 1 5| = 100000 := by rw [hs]; split <;> norm_num
    rw [hza, hzx] at hz
    have h5 := habs x y
    rw [abs_sub_comm] at h5
    norm_num at hy
    rcases le_total (100000 : ℚ) |x| with h6 | h6
    · rw [abs_of_nonpos (a := 100000 - |x|) (by linarith)] at hz; linarith [hz.1]
    · rw [abs_of_nonneg (a := 100000 - |x|) (by linarith)] at hz
      have := hz.2 (by linarith [hz.1])
      linarith
  · intro hx
    by_contra hcon
    have hy := h2 (by omega)
    obtain ⟨s, hs⟩ : ∃ s : Bool, sval s (10 ^ 5 - 1) 0 = if 0 ≤ x then (99999 : ℚ) else -99999 := by
      by_cases h0 : 0 ≤ x
      · exact ⟨false, by simp [sval, h0]⟩
      · exact ⟨true, by simp [sval, h0]⟩
    have hz := (h4.2 _ (grid_nines 5 s)).1
    have hzx : |sval s (10 ^ 5 - 1) 0 - x| = |99999 - (|x|)| := by
      rw [hs]
      split
      · rename_i h0; rw [abs_of_nonneg h0]
      · rename_i h0; rw [abs_of_neg (not_le.mp h0), ← abs_neg]; ring_nf
    rw [hzx] at hz
    have h5 := habs y x
    norm_num at hy
    rcases le_total (99999 : ℚ) |x| with h6 | h6
    · rw [abs_of_nonpos (a := 99999 - |x|) (by linarith)] at hz; linarith
    · rw [abs_of_nonneg (a := 99999 - |x|) (by linarith)] at hz; linarith

theorem unused_ok {lim : Option Int} {x : FpCell} (h : UnusedErr lim x) :
    ∃ eb0, createDecimal x.err 2 .ceiling = .ok eb0 ∧ (eb0 = .nan ∨ DLe (.ofNat 0) eb0) ∧
      (eb0 = .nan ∨ eb0 = .inf false ∨ (∃ n k, eb0 = .fin n 0 k) ∨ ∃ k, lim = some k ∧ DLt (.fin false 1 k) eb0) := by
  rcases h with h | h | ⟨n, m, e, h, h0⟩
  · exact ⟨.nan, by rw [h]; rfl, .inl rfl, .inl rfl⟩
  · exact ⟨.inf false, by rw [h]; rfl, .inr (by simp [DLe, Dec.ofNat]), .inr (.inl rfl)⟩
  · obtain ⟨a, c, k, hc, -, hr⟩ := C04_create_decimal_ceiling n m e 2 (by norm_num)
    rw [h]
    refine ⟨_, hc, .inr ?_, ?_⟩
    · have : 0 ≤ sval a c k := by
        have h1 := hr.1.2
        rcases h0 with h0 | ⟨j, -, h0⟩
        · rwa [h0] at h1
        · have := zpow10_pos j; linarith
      simpa [DLe, Dec.ofNat, sval] using this
    · rcases h0 with h0 | ⟨j, hj, h0⟩
      · right; right; left
        have h1 := hr.2 ⟨⟨false, 0, 0, by norm_num, rfl⟩, by rw [h0]; simp [sval]⟩
        have h2 := hr.1.2
        rw [h0] at h2
        have h3 : sval a c k = 0 := le_antisymm (by simpa [sval] using h1) h2
        exact ⟨a, k, by rw [(sval_eq_zero a c k).mp h3]⟩
      · right; right; right
        exact ⟨j, hj, by simpa [DLt, sval] using lt_of_lt_of_le h0 hr.1.2⟩

/-- The converted error bar of a usable error. -/
theorem usable_ok {lim : Option Int} {n : Bool} {m : Nat} {e : Int} (hpos : 0 < fval n m e)
    (hlim : ∀ k, lim = some k → fval n m e ≤ (10 : ℚ) ^ k) :
    ∃ a c k, createDecimal (.fin n m e) 2 .ceiling = .ok (.fin a c k) ∧ c < 100 ∧ 0 < sval a c k ∧
      fval n m e ≤ sval a c k ∧ ∀ j, lim = some j → sval a c k ≤ (10 : ℚ) ^ j := by
  obtain ⟨a, c, k, hc, hlt, hr⟩ := C04_create_decimal_ceiling n m e 2 (by norm_num)
  refine ⟨a, c, k, hc, by simpa using hlt, lt_of_lt_of_le hpos hr.1.2, hr.1.2, fun j hj => ?_⟩
  have := hr.2 ⟨grid_power 2 (by norm_num) false j, by simpa [sval] using hlim j hj⟩
  simpa [sval] using this

theorem unused_err {lim : Option Int} {eb1 : Dec} (h3 : eb1 = .nan ∨ eb1 = .inf false ∨ (∃ n k, eb1 = .fin n 0 k) ∨
    ∃ k, lim = some k ∧ DLt (.fin false 1 k) eb1) :
    ((clipErr lim eb1).isFinite && !(clipErr lim eb1).isZero) = false := by
  rcases h3 with rfl | rfl | ⟨n, k, rfl⟩ | ⟨k, rfl, hlt⟩
  · rfl
  · cases lim <;> rfl
  · rcases clipErr_cases lim (.fin n 0 k) with h | h <;> rw [h] <;> simp [Dec.isZero, Dec.isFinite]
  · have hnan : eb1.isNan = false := by cases eb1 <;> simp_all [DLt, Dec.isNan]
    have := (not_leNum_iff (.fin false 1 k) eb1 rfl hnan).mpr hlt
    unfold clipErr
    simp only [hnan, this, Bool.or_self, Bool.false_eq_true, if_false]
    rfl

theorem usable_err {lim : Option Int} {x : FpCell} {r : DecCell}
    (hr : decimalizeCell { errDigits := 2, pvalDigits := 4, defaultDigits := 5 } lim x = .ok r)
    {en : Bool} {em : Nat} {ee : Int} (hxe : x.err = .fin en em ee) {a : Bool} {c : Nat} {k : Int}
    (hc : createDecimal (.fin en em ee) 2 .ceiling = .ok (.fin a c k))
    (hl : ∀ j, lim = some j → sval a c k ≤ (10 : ℚ) ^ j) : r.err = .fin a c k := by
  obtain ⟨-, eb1, he1, -, herr, -⟩ := decimalizeCell_ok hr
  have heq : eb1 = .fin a c k := by
    have : (Except.ok eb1 : Py Dec) = .ok (.fin a c k) := he1.symm.trans (by rw [hxe]; exact hc)
    injection this
  rw [herr, heq]
  unfold clipErr
  rw [if_pos]
  simp only [Dec.isNan, Bool.false_or]
  rw [leNum_iff]
  cases lim with
  | none => simp [DLe]
  | some j => simpa [DLe, sval] using hl j rfl

/-- **C118, sufficient condition on the numbers.**  Every cell is formatted if the p-value is NaN or between 0 and 1, the
estimate is a number, and either the error bar is unused (and, without a shift, the estimate is below 99999.5 in absolute
value) or it is usable with an estimate at most `10^26` times as large (and, without a shift, at most 99). -/
theorem C118_cell (shiftMod lim kmin kmax : Option Int) (x : FpCell) (hp : GoodP x) {n : Bool} {m : Nat} {e : Int}
    (hx : x.mean = .fin n m e)
    (h : UnusedErr lim x ∧ (shiftMod = none → |fval n m e| < 99999 + 1 / 2) ∨
      ∃ en em ee, x.err = .fin en em ee ∧ 0 < fval en em ee ∧ (∀ k, lim = some k → fval en em ee ≤ (10 : ℚ) ^ k) ∧
        |fval n m e| ≤ 10 ^ 26 * fval en em ee ∧ (shiftMod = none → fval en em ee ≤ 99)) :
    ∃ r, decimalizeCell { errDigits := 2, pvalDigits := 4, defaultDigits := 5 } lim x = .ok r ∧
      CellPrints shiftMod kmin kmax r := by
  rcases h with ⟨hu, hs⟩ | ⟨en, em, ee, hxe, hpos, hlim, hbig, hs⟩
  · obtain ⟨eb0, h1, h2, h3⟩ := unused_ok hu
    obtain ⟨r, hr⟩ := C10_ok_without_quantum { errDigits := 2, pvalDigits := 4, defaultDigits := 5 } lim x (by norm_num)
      (by norm_num) (by norm_num) hp eb0 h1 h2 h3
    obtain ⟨-, eb1, he1, -, herr, hmean, -, -⟩ := decimalizeCell_ok hr
    have heq : eb1 = eb0 := by
      have : (Except.ok eb1 : Py Dec) = .ok eb0 := he1.symm.trans h1
      injection this
    subst heq
    have hcm := unused_err h3
    rw [← herr] at hcm
    unfold cellMean at hmean
    rw [hcm, if_neg (by simp), hx] at hmean
    obtain ⟨a, c, k, hc, -, -⟩ := C04_create_decimal_half_up n m e 5 (by norm_num)
    have hm : r.mean = .fin a c k := by
      have : (Except.ok r.mean : Py Dec) = .ok (.fin a c k) := hmean.symm.trans hc
      injection this
    refine ⟨r, hr, by rw [hm]; simp, by rw [hm]; simp, by rw [hm]; simp, fun hn n' c' e' h' _ _ => ?_⟩
    rw [hm] at h'
    cases h'
    exact (halfUp_exp hc).mpr (hs hn)
  · obtain ⟨a, c, k, hc, hc100, hy, hle, hl⟩ := usable_ok hpos hlim
    obtain ⟨c0, k0, hf, hv⟩ := ofFloat_val n m e
    have hu := zpow10_pos k
    obtain ⟨y, hyr, hylt⟩ : ∃ y, RoundsToUnit (10 ^ k) (fval n m e) y ∧ |y| < 10 ^ 28 * (10 : ℚ) ^ k := by
      have hR := rescaled_halfUp n c0 k0 k
      rw [hv] at hR
      refine ⟨_, hR, ?_⟩
      generalize sval n (rescaled .halfUp n c0 k0 k) k = y at *
      generalize fval n m e = q at *
      have h1 := (hR.2 ⌊q / 10 ^ k⌋).1
      have h2 : |(⌊q / (10 : ℚ) ^ k⌋ : ℚ) * 10 ^ k - q| ≤ 10 ^ k := by
        have h3 := Int.floor_le (q / (10 : ℚ) ^ k)
        have h4 := (Int.lt_floor_add_one (q / (10 : ℚ) ^ k)).le
        rw [le_div_iff₀ hu] at h3
        rw [div_le_iff₀ hu] at h4
        rw [_root_.abs_le]; constructor <;> nlinarith
      have h5 : |y| ≤ |q| + 10 ^ k := by
        have := abs_sub_abs_le_abs_sub y q
        linarith
      have h6 : sval a c k ≤ 99 * 10 ^ k := by
        refine (le_abs_self _).trans ?_
        rw [abs_sval]
        have : (c : ℚ) ≤ 99 := by exact_mod_cast Nat.lt_succ_iff.mp hc100
        exact mul_le_mul_of_nonneg_right this hu.le
      nlinarith
    rcases C10_fails_iff_mean_needs_more_than_28_digits { errDigits := 2, pvalDigits := 4, defaultDigits := 5 } lim x
      (by norm_num) (by norm_num) hp n m e hx a c k (by rw [hxe]; exact hc) hy hl y hyr with h | ⟨-, r, hr⟩
    · exact absurd hylt (not_lt.mpr h.1)
    have hre := usable_err hr hxe hc hl
    have hc0 : c ≠ 0 := by rintro rfl; simp [sval] at hy
    obtain ⟨c', hm, -⟩ := C07_mean_half_up_to_error_quantum _ lim x r n m e hx a c k hre hc0 hr
    refine ⟨r, hr, by rw [hm]; simp, by rw [hm]; simp, by rw [hm]; simp, fun hn n' c' e' h' _ _ => ?_⟩
    rw [hm] at h'
    cases h'
    exact (ceiling_exp hpos hc).mpr (hs hn)

/-- **C118, a table of numbers is formatted.**  `just_format_it` returns a text, TeX or plain, for every table with at least
one method and metric whose cells meet the condition of `C118_cell`. -/
theorem C118_floats {sortAbs : List Int → List Int} (hsort : SortsByAbs sortAbs) (ebLimit : Str → Option Int)
    (o : FormatOpts Str) (ud : Str → Option Str) (usePrefix useTex : Bool) (t : Table Str FpCell)
    (h1 : t.methods ≠ []) (h2 : t.metrics ≠ []) (h3 : ∀ m, o.shiftMod = some m → 1 ≤ m)
    (h4 : ∀ metric ∈ t.metrics, ∀ method ∈ t.methods, GoodP (t.cell method metric) ∧
      ∃ n m e, (t.cell method metric).mean = .fin n m e ∧
        (UnusedErr (ebLimit metric) (t.cell method metric) ∧ (o.shiftMod = none → |fval n m e| < 99999 + 1 / 2) ∨
        ∃ en em ee, (t.cell method metric).err = .fin en em ee ∧ 0 < fval en em ee ∧
          (∀ k, ebLimit metric = some k → fval en em ee ≤ (10 : ℚ) ^ k) ∧
          |fval n m e| ≤ 10 ^ 26 * fval en em ee ∧ (o.shiftMod = none → fval en em ee ≤ 99))) :
    ∃ text, justFormatItText sortAbs ebLimit o ud usePrefix useTex t = .ok text := by
  refine (C118_criterion hsort ebLimit o ud usePrefix useTex t).mpr ⟨h1, h2, h3, fun metric hm method hmeth => ?_⟩
  obtain ⟨hp, n, m, e, hx, h⟩ := h4 metric hm method hmeth
  exact C118_cell _ _ _ _ _ hp hx h

/-- **C118, estimates that cannot be shown.**  No text is returned if some estimate is NaN, or infinite on a side without a
limit. -/
theorem C118_not_a_number {sortAbs : List Int → List Int} (hsort : SortsByAbs sortAbs) (ebLimit : Str → Option Int)
    (o : FormatOpts Str) (ud : Str → Option Str) (usePrefix useTex : Bool) (t : Table Str FpCell)
    {metric method : Str} (hm : metric ∈ t.metrics) (hmeth : method ∈ t.methods)
    (h : (t.cell method metric).mean = .nan ∨ (t.cell method metric).mean = .inf false ∧ o.crapMax metric = none ∨
      (t.cell method metric).mean = .inf true ∧ o.crapMin metric = none) :
    ¬ ∃ text, justFormatItText sortAbs ebLimit o ud usePrefix useTex t = .ok text := by
  rw [C118_criterion hsort ebLimit o ud usePrefix useTex t]
  rintro ⟨-, -, -, h4⟩
  obtain ⟨r, hr, hp1, hp2, hp3, -⟩ := h4 metric hm method hmeth
  obtain ⟨-, eb0, -, -, -, hmean, -, -⟩ := decimalizeCell_ok hr
  have key : ∀ y : PyFloat, (t.cell method metric).mean = y → (y = .nan ∨ ∃ b, y = .inf b) →
      r.mean = Dec.ofFloat y := by
    intro y hy hyy
    rw [hy] at hmean
    unfold cellMean at hmean
    split at hmean
    · rename_i hf
      cases hre : r.err with
      | nan => rw [hre] at hf; cases hf
      | inf _ => rw [hre] at hf; cases hf
      | fin nb cb eb =>
        rw [hre] at hmean
        rcases hyy with rfl | ⟨b, rfl⟩
        · simp only [Dec.ofFloat, Dec.quantize] at hmean ⊢; injection hmean with hmean; exact hmean.symm
        · simp [Dec.ofFloat, Dec.quantize] at hmean
    · rw [createDecimal_eq, if_pos (by norm_num)] at hmean
      injection hmean with hmean
      rw [← hmean]
      rcases hyy with rfl | ⟨b, rfl⟩ <;> rfl
  rcases h with h | ⟨h, hk⟩ | ⟨h, hk⟩
  · exact hp1 (key _ h (.inl rfl))
  · exact hp2 (key _ h (.inr ⟨_, rfl⟩)) hk
  · exact hp3 (key _ h (.inr ⟨_, rfl⟩)) hk

theorem halfUp_within {d : Nat} (hd : 1 ≤ d) {x y : ℚ} (h : RoundsHalfUp d x y) {k : Int} :
    (x ≤ 10 ^ k → y ≤ 10 ^ k) ∧ (-(10 ^ k) ≤ x → -(10 ^ k) ≤ y) := by
  have h1 := (h.2 _ (grid_power d hd false k)).1
  have h2 := (h.2 _ (grid_power d hd true k)).1
  simp only [sval, Bool.false_eq_true, if_false, if_true, Nat.cast_one, one_mul, mul_one, neg_mul] at h1 h2
  constructor
  · intro hx
    by_contra hcon
    push Not at hcon
    rw [abs_of_nonneg (by linarith), abs_of_nonneg (by linarith)] at h1
    linarith
  · intro hx
    by_contra hcon
    push Not at hcon
    rw [abs_of_nonpos (by linarith), abs_of_nonpos (by linarith)] at h2
    linarith

/-- **C118, without a shift.**  With `shift_mod=None` no text is returned if some estimate within the limits has a usable
error bar above 99, or no usable error bar and 99999.5 or more in absolute value. -/
theorem C118_unscaled {sortAbs : List Int → List Int} (hsort : SortsByAbs sortAbs) (ebLimit : Str → Option Int)
    (o : FormatOpts Str) (ud : Str → Option Str) (usePrefix useTex : Bool) (t : Table Str FpCell)
    (hs : o.shiftMod = none) {metric method : Str} (hm : metric ∈ t.metrics) (hmeth : method ∈ t.methods)
    {n : Bool} {m : Nat} {e : Int} (hx : (t.cell method metric).mean = .fin n m e)
    (hmax : ∀ k, o.crapMax metric = some k → fval n m e ≤ (10 : ℚ) ^ k)
    (hmin : ∀ k, o.crapMin metric = some k → -((10 : ℚ) ^ k) ≤ fval n m e)
    (h : UnusedErr (ebLimit metric) (t.cell method metric) ∧ 99999 + 1 / 2 ≤ |fval n m e| ∨
      ∃ en em ee, (t.cell method metric).err = .fin en em ee ∧ 99 < fval en em ee ∧
        ∀ k, ebLimit metric = some k → fval en em ee ≤ (10 : ℚ) ^ k) :
    ¬ ∃ text, justFormatItText sortAbs ebLimit o ud usePrefix useTex t = .ok text := by
  rw [C118_criterion hsort ebLimit o ud usePrefix useTex t]
  rintro ⟨-, -, -, h4⟩
  obtain ⟨r, hr, -, -, -, hp4⟩ := h4 metric hm method hmeth
  obtain ⟨-, eb1, he1, -, herr, hmean, -, -⟩ := decimalizeCell_ok hr
  have hp4 := hp4 hs
  rcases h with ⟨hu, hbig⟩ | ⟨en, em, ee, hxe, hbig, hlim⟩
  · obtain ⟨eb0, h1, h2, h3⟩ := unused_ok hu
    have heq : eb1 = eb0 := by
      have : (Except.ok eb1 : Py Dec) = .ok eb0 := he1.symm.trans h1
      injection this
    subst heq
    have hcm := unused_err h3
    rw [← herr] at hcm
    unfold cellMean at hmean
    rw [hcm, if_neg (by simp), hx] at hmean
    obtain ⟨a, c, k, hc, -, hround⟩ := C04_create_decimal_half_up n m e 5 (by norm_num)
    have hm : r.mean = .fin a c k := by
      have : (Except.ok r.mean : Py Dec) = .ok (.fin a c k) := hmean.symm.trans hc
      injection this
    have := hp4 a c k hm (fun j hj => (halfUp_within (by norm_num) hround).1 (hmax j hj))
      (fun j hj => (halfUp_within (by norm_num) hround).2 (hmin j hj))
    exact absurd ((halfUp_exp hc).mp this) (not_lt.mpr hbig)
  · have hpos : 0 < fval en em ee := by linarith
    obtain ⟨a, c, k, hc, hc100, hy, hle, hl⟩ := usable_ok hpos hlim
    have hre := usable_err hr hxe hc hl
    have hc0 : c ≠ 0 := by rintro rfl; simp [sval] at hy
    obtain ⟨c', hm, -, hround, -⟩ := C07_mean_half_up_to_error_quantum _ _ _ r n m e hx a c k hre hc0 hr
    have hneg := roundsToUnit_neg hround
    have := hp4 n c' k hm (fun j hj => roundsToUnit_le_pow k j _ _ hround (hmax j hj))
      (fun j hj => by
        have := roundsToUnit_le_pow k j _ _ hneg (by linarith [hmin j hj])
        linarith)
    exact absurd ((ceiling_exp hpos hc).mp this) (not_le.mpr hbig)

/-- C118, concrete: method A has the estimate 1.5 only, method B has 3.25 ± 0.125 with p = 0.25. -/
def formatCase (b : PyFloat) : Table Str FpCell :=
  ⟨["A".toList, "B".toList], ["NLL".toList], fun method _ =>
    if method = "A".toList then ⟨.fin false 3 (-1), .nan, .nan⟩ else ⟨b, .fin false 1 (-3), .fin false 1 (-2)⟩⟩

example (useTex : Bool) : ∃ text, justFormatItText (fun l => l.insertionSort fun a b => |a| ≤ |b|) (fun _ => none) {}
    (fun _ => none) true useTex (formatCase (.fin false 13 (-2))) = .ok text := by
  refine C118_floats sortsByAbs_insertionSort _ _ _ _ _ _ (by simp [formatCase]) (by simp [formatCase]) (by simp) ?_
  intro metric _ method hmeth
  simp only [formatCase, List.mem_cons, List.not_mem_nil, or_false] at hmeth
  rcases hmeth with rfl | rfl
  · exact ⟨.inl rfl, false, 3, -1, rfl, .inl ⟨.inl rfl, fun _ => by norm_num [fval]⟩⟩
  · refine ⟨.inr ⟨false, 1, -2, rfl, by norm_num [fval], by norm_num [fval]⟩, false, 13, -2, rfl,
      .inr ⟨false, 1, -3, rfl, by norm_num [fval], by simp, by norm_num [fval], fun _ => by norm_num [fval]⟩⟩

/-- C118, concrete: a NaN estimate of method B. -/
example (useTex : Bool) : ¬ ∃ text, justFormatItText (fun l => l.insertionSort fun a b => |a| ≤ |b|) (fun _ => none) {}
    (fun _ => none) true useTex (formatCase .nan) = .ok text :=
  C118_not_a_number sortsByAbs_insertionSort _ _ _ _ _ _ (metric := "NLL".toList) (method := "B".toList)
    (by simp [formatCase]) (by simp [formatCase]) (.inl rfl)

/-- C118, concrete: an estimate of 5000 ± 128 cannot be shown without a shift. -/
example (useTex : Bool) : ¬ ∃ text, justFormatItText (fun l => l.insertionSort fun a b => |a| ≤ |b|) (fun _ => none) {}
    (fun _ => none) true useTex ⟨["A".toList], ["NLL".toList], fun _ _ => ⟨.fin false 5000 0, .fin false 128 0, .nan⟩⟩ =
      .ok text :=
  C118_unscaled sortsByAbs_insertionSort _ _ _ _ _ _ rfl (metric := "NLL".toList) (method := "A".toList)
    (by simp) (by simp) rfl (by simp) (by simp) (.inr ⟨false, 128, 0, rfl, by norm_num [fval], by simp⟩)

end Mlp.Props
