import Verif.Spec.IeeeTable
import Verif.Props.IeeeGradual

/-!
# Property C128: `loss_summary_table` in IEEE double precision with gradual underflow
-/

namespace Mlp.Props
open Mlp.Paper Mlp.PaperR Mlp.PerfR Mlp.BootR Mlp.Boot Mlp.Spec Mlp.Lemmas Mlp.Round

/-- The doubles below 1 end at `1 - 2 ^ -53`. -/
theorem float_lt_one {c : ℝ} (hc : ieeeRound c = c) (h0 : 0 < c) (h1 : c < 1) : 1 / 2 ^ 53 ≤ 1 - c := by
  by_contra h
  have h := not_le.1 h
  have h2 : (2 ^ 1)⁻¹ ≤ |c| := by
    rw [abs_of_pos h0]
    norm_num at h ⊢
    linarith
  have h3 : ((2 : ℝ) ^ 1022)⁻¹ ≤ (2 ^ 1)⁻¹ := inv_anti₀ (by positivity) (pow_le_of (by norm_num))
  rw [ieeeRound_big (h3.trans h2)] at hc
  obtain ⟨⟨m, hm⟩, -⟩ := dyadic_rnd_of_ge (x := c) (j := 1) (e := 0) h2 (by rw [abs_of_pos h0]; simpa using h1.le)
  rw [hc] at hm
  have hlt : m < 2 ^ 53 := by
    have : (m : ℝ) < 2 ^ 53 := by
      rw [← hm]
      have : c * 2 ^ (1 + 52) < 1 * 2 ^ (1 + 52) := mul_lt_mul_of_pos_right h1 (by positivity)
      simpa using this
    exact_mod_cast this
  have hgt : (2 : ℝ) ^ 53 - 1 < m := by
    rw [← hm]
    have e : (1 - 1 / 2 ^ 53) * (2 : ℝ) ^ 53 = 2 ^ 53 - 1 := by norm_num
    rw [← e]
    exact mul_lt_mul_of_pos_right (by linarith) (by positivity)
  have : (2 : Int) ^ 53 - 1 < m := by exact_mod_cast hgt
  omega

theorem tiny_conf {c : ℝ} (hc : ieeeRound c = c) (h0 : 0 < c) (h1 : c < 1) : 2 * (1 / 2 ^ 1022 : ℝ) < 1 - c := by
  refine lt_of_lt_of_le ?_ (float_lt_one hc h0 h1)
  have h : (1 : ℝ) / 2 ^ 1022 ≤ 1 / 2 ^ 55 := one_div_le_one_div_of_le (by positivity) (pow_le_of (by norm_num))
  refine lt_of_le_of_lt (mul_le_mul_of_nonneg_left h (by norm_num)) ?_
  norm_num

theorem ieee_safe {n : Nat} (hn : n ≤ 9 * 10 ^ 9) {lower upper : Flt ℝ} (h : IeeeLimits lower upper) :
    SafeLimits (1 / 2 ^ 1022) (fun x => ieeeRound x = x) n lower upper := by
  refine ⟨h.1, h.2.1, fun l u hl hu => ?_⟩
  rcases h.2.2 l u hl hu with h | h
  · exact .inl h
  · right
    refine lt_of_lt_of_le ?_ h
    have hn' : (n : ℝ) ≤ 9 * 10 ^ 9 := by exact_mod_cast hn
    have e : (1 : ℝ) / 2 ^ 985 = 2 ^ 37 * (1 / 2 ^ 1022) := by
      rw [show (1022 : Nat) = 985 + 37 by norm_num, pow_add]
      field_simp
    rw [e]
    refine mul_lt_mul_of_pos_right ?_ (by positivity)
    calc (8 : ℝ) * n ≤ 8 * (9 * 10 ^ 9) := by linarith
      _ < 2 ^ 37 := by norm_num

theorem ieee_size {n : Nat} (hn : n ≤ 9 * 10 ^ 9) : (n : ℝ) * (1 / 2 ^ 53) ≤ 1 / 1000000 := by
  have hn' : (n : ℝ) ≤ 9 * 10 ^ 9 := by exact_mod_cast hn
  calc (n : ℝ) * (1 / 2 ^ 53) ≤ 9 * 10 ^ 9 * (1 / 2 ^ 53) := mul_le_mul_of_nonneg_right hn' (by positivity)
    _ ≤ 1 / 1000000 := by norm_num

theorem ieeeRound_int {v : ℤ} (h : |v| ≤ 2 ^ 53) : ieeeRound (v : ℝ) = v := by
  rw [ieeeRound_inRange]
  · have := binary64_exact (K := ℝ) v 0 h
    simpa using this
  · refine ⟨?_, .inr ⟨v * 2 ^ 1074, by push_cast; rfl⟩⟩
    have : |(v : ℝ)| ≤ 2 ^ 53 := by rw [← Int.cast_abs]; exact_mod_cast h
    exact this.trans (pow_le_of (by norm_num))

section
variable {L : Lib ℝ} (hL : SignLib L) (hr : L.rnd = ieeeRound)
include hL hr

/-- **C128, doubles with `pairwise_CI`.**  If every operation rounds to doubles with gradual underflow, the table is produced for
all finite losses within limits that are doubles (or infinite) and equal or at least `2 ^ -985` apart, for up to nine thousand million
rows, every confidence level in (0,1) that is a double, every method and all bootstrap draws. -/
theorem C128_ieee_paired {tbl : LossTable} {refMethod : Str}
    {c : ℝ} (hc : ieeeRound c = c) (h0 : 0 < c) (h1 : c < 1) {methodEB : EBMethod} (hme : methodEB ≠ .other)
    {limits : List (Str × (Flt ℝ × Flt ℝ))} {draws : Str → Str → Draws}
    (hd : methodEB = .boot → ∀ metric method, ValidDraws tbl.nrows 1000 (draws metric method).eb)
    (href : refMethod ∈ tbl.methods) (hrows : 1 ≤ tbl.nrows) (hn : tbl.nrows ≤ 9 * 10 ^ 9) (hmetrics : tbl.metrics ≠ [])
    (hfin : ∀ metric ∈ tbl.metrics, ∃ lower upper, LimitsOf limits metric lower upper ∧
      ValidLimits lower upper ∧ IeeeLimits lower upper ∧ ∀ method ∈ tbl.methods, ∃ xs : List ℝ,
        HasLoss tbl metric method (finVec xs) ∧ xs.length = tbl.nrows ∧ Within lower upper xs) :
    ∃ out, lossSummaryTableR L tbl refMethod true (.fin c) methodEB limits draws = .ok out ∧
      List.Forall₂ (fun metric row => List.Forall₂ (fun method cell =>
        (∃ xs : List ℝ, HasLoss tbl metric method (finVec xs) ∧ cell.1 = .fin (meanR L xs)) ∧
        (method = refMethod → cell.2 = (.nan, .nan)) ∧
        (method ≠ refMethod → cell.2.1 ≠ .nan ∧ .fin 0 ≤ cell.2.1 ∧ ∃ p : ℝ, cell.2.2 = .fin p ∧ 0 ≤ p ∧ p ≤ 1))
        tbl.methods row) tbl.metrics out := by
  have hg : GradualRounding (1 / 2 ^ 53) (1 / 2 ^ 1022) (fun x => ieeeRound x = x) L.rnd := by rw [hr]; exact ieeeRound_gradual
  have hh : HalvesExact L.rnd (2 ^ 52) := by rw [hr]; exact ieeeRound_halves
  refine C128_table hL hg hh (by norm_num) h0 (tiny_conf hc h0 h1) hme hd href hrows (ieee_size hn) hmetrics fun metric hm => ?_
  obtain ⟨lower, upper, a, b, s, d⟩ := hfin metric hm
  exact ⟨lower, upper, a, b, ieee_safe hn s, d⟩

/-- **C128, doubles without `pairwise_CI`.**  The same for losses that are doubles: if every computed mean lies within the limits, the
table is produced; if one does not, the call ends in an AssertionError. -/
theorem C128_ieee_unpaired {tbl : LossTable} {refMethod : Str}
    {c : ℝ} (hc : ieeeRound c = c) (h0 : 0 < c) (h1 : c < 1) {methodEB : EBMethod} (hme : methodEB ≠ .other)
    {limits : List (Str × (Flt ℝ × Flt ℝ))} {draws : Str → Str → Draws}
    (hd : methodEB = .boot → ∀ metric method, ValidDraws tbl.nrows 1000 (draws metric method).eb ∧
      ValidDraws tbl.nrows 1000 (draws metric method).test)
    (href : refMethod ∈ tbl.methods) (hrows : 1 ≤ tbl.nrows) (hn : tbl.nrows ≤ 9 * 10 ^ 9) (hmetrics : tbl.metrics ≠ [])
    (hfin : ∀ metric ∈ tbl.metrics, ∃ lower upper, LimitsOf limits metric lower upper ∧
      ValidLimits lower upper ∧ IeeeLimits lower upper ∧ ∀ method ∈ tbl.methods, ∃ xs : List ℝ,
        HasLoss tbl metric method (finVec xs) ∧ xs.length = tbl.nrows ∧ Within lower upper xs ∧ ∀ x ∈ xs, ieeeRound x = x) :
    ((∀ metric ∈ tbl.metrics, ∀ method ∈ tbl.methods, ∀ lower upper, ∀ xs : List ℝ, LimitsOf limits metric lower upper →
        HasLoss tbl metric method (finVec xs) → lower ≤ .fin (meanR L xs) ∧ .fin (meanR L xs) ≤ upper) →
      ∃ out, lossSummaryTableR L tbl refMethod false (.fin c) methodEB limits draws = .ok out ∧
      List.Forall₂ (fun metric row => List.Forall₂ (fun method cell =>
        (∃ xs : List ℝ, HasLoss tbl metric method (finVec xs) ∧ cell.1 = .fin (meanR L xs)) ∧
        cell.2.1 ≠ .nan ∧ .fin 0 ≤ cell.2.1 ∧
        (method = refMethod → cell.2.2 = .nan) ∧
        (method ≠ refMethod → ∃ p : ℝ, cell.2.2 = .fin p ∧ 0 ≤ p ∧ p ≤ 1))
        tbl.methods row) tbl.metrics out) ∧
    (∀ metric ∈ tbl.metrics, ∀ method ∈ tbl.methods, ∀ lower upper, ∀ xs : List ℝ, LimitsOf limits metric lower upper →
        HasLoss tbl metric method (finVec xs) → ¬ (lower ≤ .fin (meanR L xs) ∧ .fin (meanR L xs) ≤ upper) →
      lossSummaryTableR L tbl refMethod false (.fin c) methodEB limits draws = .error .assertion) := by
  have hg : GradualRounding (1 / 2 ^ 53) (1 / 2 ^ 1022) (fun x => ieeeRound x = x) L.rnd := by rw [hr]; exact ieeeRound_gradual
  have hh : HalvesExact L.rnd (2 ^ 52) := by rw [hr]; exact ieeeRound_halves
  refine C128_table_unpaired hL hg hh (by norm_num) h0 (tiny_conf hc h0 h1) hme hd href hrows (ieee_size hn) hmetrics fun metric hm => ?_
  obtain ⟨lower, upper, a, b, s, d⟩ := hfin metric hm
  exact ⟨lower, upper, a, b, ieee_safe hn s, d⟩

/-- **C128, integer limits.**  Without `pairwise_CI` the table is produced if the limits are infinite or integers whose product with
the number of rows is at most `2 ^ 53`. -/
theorem C128_ieee_integers {tbl : LossTable} {refMethod : Str}
    {c : ℝ} (hc : ieeeRound c = c) (h0 : 0 < c) (h1 : c < 1) {methodEB : EBMethod} (hme : methodEB ≠ .other)
    {limits : List (Str × (Flt ℝ × Flt ℝ))} {draws : Str → Str → Draws}
    (hd : methodEB = .boot → ∀ metric method, ValidDraws tbl.nrows 1000 (draws metric method).eb ∧
      ValidDraws tbl.nrows 1000 (draws metric method).test)
    (href : refMethod ∈ tbl.methods) (hrows : 1 ≤ tbl.nrows) (hn : tbl.nrows ≤ 9 * 10 ^ 9) (hmetrics : tbl.metrics ≠ [])
    (hfin : ∀ metric ∈ tbl.metrics, ∃ lower upper, LimitsOf limits metric lower upper ∧ ValidLimits lower upper ∧
      (∀ l, lower = .fin l → ∃ v : ℤ, l = v ∧ tbl.nrows * |v| ≤ 2 ^ 53) ∧
      (∀ h, upper = .fin h → ∃ v : ℤ, h = v ∧ tbl.nrows * |v| ≤ 2 ^ 53) ∧ ∀ method ∈ tbl.methods, ∃ xs : List ℝ,
        HasLoss tbl metric method (finVec xs) ∧ xs.length = tbl.nrows ∧ Within lower upper xs ∧ ∀ x ∈ xs, ieeeRound x = x) :
    ∃ out, lossSummaryTableR L tbl refMethod false (.fin c) methodEB limits draws = .ok out ∧
      List.Forall₂ (fun metric row => List.Forall₂ (fun method cell =>
        (∃ xs : List ℝ, HasLoss tbl metric method (finVec xs) ∧ cell.1 = .fin (meanR L xs)) ∧
        cell.2.1 ≠ .nan ∧ .fin 0 ≤ cell.2.1 ∧
        (method = refMethod → cell.2.2 = .nan) ∧
        (method ≠ refMethod → ∃ p : ℝ, cell.2.2 = .fin p ∧ 0 ≤ p ∧ p ≤ 1))
        tbl.methods row) tbl.metrics out := by
  have hg : GradualRounding (1 / 2 ^ 53) (1 / 2 ^ 1022) (fun x => ieeeRound x = x) L.rnd := by rw [hr]; exact ieeeRound_gradual
  have hh : HalvesExact L.rnd (2 ^ 52) := by rw [hr]; exact ieeeRound_halves
  have key : ∀ {x : Flt ℝ}, (∀ l, x = .fin l → ∃ v : ℤ, l = v ∧ tbl.nrows * |v| ≤ 2 ^ 53) → GridLimit L.rnd tbl.nrows x := by
    intro x hx
    cases x with
    | fin l =>
      obtain ⟨v, rfl, hv⟩ := hx l rfl
      intro k hk
      rw [hr]
      have hk' : |(k : ℤ) * v| ≤ 2 ^ 53 := by
        rw [abs_mul, Nat.abs_cast]
        exact (mul_le_mul_of_nonneg_right (by exact_mod_cast hk) (abs_nonneg v)).trans hv
      have := ieeeRound_int hk'
      simpa using this
    | _ => trivial
  refine C128_table_grid hL hg hh (by norm_num) h0 (tiny_conf hc h0 h1) hme hd href hrows (ieee_size hn) hmetrics fun metric hm => ?_
  obtain ⟨lower, upper, a, b, i1, i2, d⟩ := hfin metric hm
  refine ⟨lower, upper, a, b, ieee_safe hn ⟨?_, ?_, ?_⟩, key i1, key i2, d⟩
  · rintro l rfl
    obtain ⟨v, rfl, hv⟩ := i1 l rfl
    exact ieeeRound_int (le_trans (le_mul_of_one_le_left (abs_nonneg v) (by exact_mod_cast hrows)) hv)
  · rintro l rfl
    obtain ⟨v, rfl, hv⟩ := i2 l rfl
    exact ieeeRound_int (le_trans (le_mul_of_one_le_left (abs_nonneg v) (by exact_mod_cast hrows)) hv)
  · rintro l h rfl rfl
    obtain ⟨v, rfl, -⟩ := i1 l rfl
    obtain ⟨w, rfl, -⟩ := i2 h rfl
    rcases eq_or_ne v w with e | e
    · exact .inl (by rw [e])
    · right
      have hle : (v : ℝ) ≤ w := Flt.fin_le_fin.1 b.2.2.1
      have hle' : v ≤ w := by exact_mod_cast hle
      have h1 : v + 1 ≤ w := by omega
      have h1' : (v : ℝ) + 1 ≤ w := by exact_mod_cast h1
      have : (1 : ℝ) / 2 ^ 985 ≤ 1 := by
        rw [div_le_one (by positivity)]
        exact one_le_pow₀ (by norm_num)
      linarith

omit hL in
/-- **C128, accuracy.**  The computed mean of `n` doubles differs from their average by at most `2 n / 2 ^ 53` times the average of their
absolute values plus `2 ^ -1022`, whatever the order in which `np.sum` adds. -/
theorem C128_mean (hs : AddsAlongTrees L.rnd L.sum) {xs : List ℝ} (hne : xs ≠ []) (hn : xs.length ≤ 9 * 10 ^ 9)
    (hx : ∀ x ∈ xs, ieeeRound x = x) : |meanR L xs - avg xs| ≤ 2 * (xs.length / 2 ^ 53) * avgAbs xs + 1 / 2 ^ 1022 := by
  have hg : GradualRounding (1 / 2 ^ 53) (1 / 2 ^ 1022) (fun x => ieeeRound x = x) L.rnd := by rw [hr]; exact ieeeRound_gradual
  refine (meanR_error_on hg hs hne hx).trans ?_
  have h1 := pow_one_add_le (u := (1 / 2 ^ 53 : ℝ)) (by positivity) (n := xs.length) (by linarith [ieee_size hn])
  have h2 := mul_le_mul_of_nonneg_right (show (1 + 1 / 2 ^ 53) ^ xs.length - 1 ≤ 2 * (xs.length / 2 ^ 53 : ℝ) by
    rw [div_eq_mul_one_div (xs.length : ℝ)]; exact h1) (avgAbs_nonneg xs)
  linarith

end

/-! ## A library -/

/-- Adding from left to right. -/
noncomputable def leftSum (rnd : ℝ → ℝ) : List ℝ → ℝ
  | [] => 0
  | a :: l => foldR rnd a l

theorem leftSum_trees (rnd : ℝ → ℝ) : AddsAlongTrees rnd (leftSum rnd) := by
  refine ⟨rfl, fun l hl => ?_⟩
  obtain ⟨a, l, rfl⟩ := List.exists_cons_of_ne_nil hl
  suffices h : ∀ (l : List ℝ) (t : SumTree ℝ), ∃ t' : SumTree ℝ, t'.leaves.Perm (t.leaves ++ l) ∧
      foldR rnd (t.eval rnd) l = t'.eval rnd by
    obtain ⟨t', h1, h2⟩ := h l (.leaf a)
    exact ⟨t', h1, h2⟩
  intro l
  induction l with
  | nil => intro t; exact ⟨t, by simp, rfl⟩
  | cons b l ih =>
    intro t
    obtain ⟨t', h1, h2⟩ := ih (.node t (.leaf b))
    refine ⟨t', ?_, h2⟩
    simpa [SumTree.leaves] using h1

noncomputable section

/-- A library in IEEE double precision with gradual underflow: sums from left to right, the other functions correctly rounded. -/
def ieeeLib : Lib ℝ where
  rnd := ieeeRound
  sum := leftSum ieeeRound
  sqrt x := ieeeRound (Real.sqrt x)
  log x := ieeeRound (Real.log x)
  exp x := ieeeRound (Real.exp x)
  roots a b c := (quadRoots a b c).map fun r => (ieeeRound r.1, ieeeRound r.2)
  tInterval n c := (ieeeRound ((studentT (max n 1)).ppf ((1 - c) / 2)), ieeeRound ((studentT (max n 1)).ppf ((1 + c) / 2)))
  tSf n t := rF ieeeRound ((studentT (max n 1)).sf t)

theorem ieeeRound_half : ieeeRound (1 / 2 : ℝ) = 1 / 2 := by simpa using ieeeRound_halves (K := ℝ) 1 (by norm_num)

/-- Positive doubles are at least `2 ^ -1074`. -/
theorem float_ge {x : ℝ} (h : ieeeRound x = x) (h0 : 0 < x) : (2 ^ 1074)⁻¹ ≤ x := by
  obtain ⟨m, hm⟩ := float_grid h
  have hm0 : 0 < m := by
    have : (0 : ℝ) < m := by rw [← hm]; positivity
    exact_mod_cast this
  have hm1 : (1 : ℝ) ≤ m := by exact_mod_cast hm0
  rw [inv_le_iff_one_le_mul₀ (by positivity), hm]
  exact hm1

theorem ieeeLib_sign : SignLib ieeeLib where
  sum := leftSum_trees _
  sqrt_zero := by simp [ieeeLib, ieeeRound_monoRounding.zero]
  sqrt_nonneg x _ := ieeeRound_monoRounding.nonneg (Real.sqrt_nonneg x)
  sqrt_pos x h hx := by
    have h1 : ((2 : ℝ) ^ 1022)⁻¹ ≤ Real.sqrt x := by
      refine Real.le_sqrt_of_sq_le (le_trans ?_ (float_ge h hx))
      rw [← inv_pow, ← pow_mul]
      rw [← inv_pow]
      exact pow_le_pow_of_le_one (by norm_num) (by norm_num) (by norm_num)
    have h2 := ieeeRound_mono h1
    rw [ieeeRound_tiny] at h2
    exact lt_of_lt_of_le (by positivity) h2
  log_pos x hx := by
    have h := ieeeRound_mono (half_le_log hx)
    rwa [ieeeRound_half] at h
  exp_nonneg x := ieeeRound_monoRounding.nonneg (Real.exp_pos x).le
  roots a b c ha hb hc := by
    have hD : b ^ 2 ≤ b ^ 2 - 4 * a * c := by nlinarith
    have hs : b ≤ Real.sqrt (b ^ 2 - 4 * a * c) := Real.le_sqrt_of_sq_le hD
    have h0 : ¬ (b ^ 2 - 4 * a * c < 0) := by nlinarith [sq_nonneg b]
    refine ⟨_, _, by simp only [ieeeLib, quadRoots, if_neg h0, Option.map_some]; rfl, .inl ?_, .inr ?_⟩
    · have h := ieeeRound_mono (show (-b - Real.sqrt (b ^ 2 - 4 * a * c)) / (2 * a) ≤ 0 from
        div_nonpos_of_nonpos_of_nonneg (by linarith) (by linarith))
      rwa [ieeeRound_monoRounding.zero] at h
    · exact ieeeRound_monoRounding.nonneg (div_nonneg (by linarith) (by linarith))
  tInterval n c h0 h1 := by
    have hD := studentT_isSymmetric (ν := max n 1) (le_max_right _ _)
    refine ieeeRound_mono ?_
    rw [← hD.strictMono.le_iff_le, hD.cdf_ppf _ (by linarith) (by linarith), hD.cdf_ppf _ (by linarith) (by linarith)]
    linarith
  tSf n t ht := by
    have hD := studentT_isSymmetric (ν := max n 1) (le_max_right _ _)
    have h1 := hD.half_le ht
    have h2 := hD.lt_one t
    refine ⟨_, rfl, ieeeRound_monoRounding.nonneg (by linarith), ?_⟩
    have h := ieeeRound_mono (show 1 - (studentT (max n 1)).cdf t ≤ 1 / 2 by linarith)
    rwa [ieeeRound_half] at h
  tSf_inf n := ⟨ieeeRound 0, rfl, by rw [ieeeRound_monoRounding.zero], by rw [ieeeRound_monoRounding.zero]; norm_num⟩
  tSf_nan n := rfl

end

end Mlp.Props
