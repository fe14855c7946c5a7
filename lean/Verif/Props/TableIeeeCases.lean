import Verif.Props.TableIeee

/-! # Concrete cases for C128 -/

namespace Mlp.Props
open Mlp.Paper Mlp.PaperR Mlp.PerfR Mlp.BootR Mlp.Boot Mlp.Spec Mlp.Lemmas Mlp.Round

theorem ieee_dyadic (k : ℤ) (j : Nat) (hk : |k| ≤ 2 ^ 53) (hj : j ≤ 1074) : ieeeRound ((k : ℝ) * (2 ^ j)⁻¹) = k * (2 ^ j)⁻¹ := by
  have e : (k : ℝ) * (2 ^ j)⁻¹ = k * 2 ^ (-(j : ℤ)) := by rw [zpow_neg, zpow_natCast]
  rw [ieeeRound_inRange, e, binary64_exact k _ hk]
  refine ⟨?_, .inr ⟨k * 2 ^ (1074 - j), ?_⟩⟩
  · rw [abs_mul, abs_of_pos (a := ((2 : ℝ) ^ j)⁻¹) (by positivity)]
    have h1 : |(k : ℝ)| ≤ 2 ^ 53 := by rw [← Int.cast_abs]; exact_mod_cast hk
    have h2 : ((2 : ℝ) ^ j)⁻¹ ≤ 1 := inv_le_one_of_one_le₀ (one_le_pow₀ (by norm_num))
    calc |(k : ℝ)| * (2 ^ j)⁻¹ ≤ 2 ^ 53 * 1 := mul_le_mul h1 h2 (by positivity) (by positivity)
      _ ≤ 2 ^ 1023 := by rw [mul_one]; exact pow_le_of (by norm_num)
  · push_cast
    have : (2 : ℝ) ^ 1074 = 2 ^ (1074 - j) * 2 ^ j := by rw [← pow_add, Nat.sub_add_cancel hj]
    rw [this]
    field_simp

/-- Losses of which one is the smallest positive double, and the losses of a reference. -/
noncomputable def subnormal : List ℝ := [(2 ^ 1074)⁻¹, 1 / 2]

theorem subnormal_float : ∀ x ∈ subnormal, ieeeRound x = x := by
  intro x hx
  simp only [subnormal, List.mem_cons, List.not_mem_nil, or_false] at hx
  rcases hx with rfl | rfl
  · simpa using ieee_dyadic 1 1074 (by norm_num) le_rfl
  · exact ieeeRound_half

theorem one_two_float : ieeeRound (2 : ℝ) = 2 ∧ ieeeRound (15 / 16 : ℝ) = 15 / 16 ∧ ieeeRound (0 : ℝ) = 0 := by
  refine ⟨by simpa using ieeeRound_int (v := 2) (by norm_num), ?_, ieeeRound_monoRounding.zero⟩
  have := ieee_dyadic 15 4 (by norm_num) (by norm_num)
  norm_num at this ⊢
  exact this

theorem subnormal_limits : ValidLimits (Flt.fin (0 : ℝ)) (.fin 2) ∧ Within (.fin 0) (.fin 2) subnormal ∧
    Within (.fin 0) (.fin 2) [(2 : ℝ), 0] ∧ IeeeLimits (.fin 0) (.fin 2) := by
  refine ⟨⟨by simp, by simp, by simp, by simp, by simp⟩, ?_, ?_, ?_, ?_, ?_⟩
  · intro x hx
    simp only [subnormal, List.mem_cons, List.not_mem_nil, or_false] at hx
    rcases hx with rfl | rfl
    · have h0 : (0 : ℝ) ≤ (2 ^ 1074)⁻¹ := by positivity
      have h1 : ((2 : ℝ) ^ 1074)⁻¹ ≤ 1 := inv_le_one_of_one_le₀ (one_le_pow₀ (by norm_num))
      exact ⟨Flt.fin_le_fin.2 h0, Flt.fin_le_fin.2 (by linarith)⟩
    · exact ⟨Flt.fin_le_fin.2 (by norm_num), Flt.fin_le_fin.2 (by norm_num)⟩
  · intro x hx
    fin_cases hx <;> simp
  · intro l hl
    rw [← Flt.fin.inj hl]
    exact one_two_float.2.2
  · intro l hl
    rw [← Flt.fin.inj hl]
    exact one_two_float.1
  · intro l h hl hh
    rw [← Flt.fin.inj hl, ← Flt.fin.inj hh]
    right
    have : (1 : ℝ) / 2 ^ 985 ≤ 1 := by
      rw [div_le_one (by positivity)]
      exact one_le_pow₀ (by norm_num)
    linarith

theorem subnormal_gap : ∀ l h, Flt.fin (0 : ℝ) = .fin l → Flt.fin (2 : ℝ) = .fin h →
    l = h ∨ 4 * (subnormal.length : ℝ) * (1 / 2 ^ 1022) < h - l := by
  intro l h hl hh
  have := (ieee_safe (n := 2) (by norm_num) subnormal_limits.2.2.2).2.2 l h hl hh
  refine this.imp id fun h' => lt_of_le_of_lt ?_ h'
  refine mul_le_mul_of_nonneg_right ?_ (by positivity)
  norm_num [subnormal]

theorem subnormal_size : (subnormal.length : ℝ) * (1 / 2 ^ 53) ≤ 1 / 1000000 := ieee_size (by norm_num [subnormal])

theorem conf_ok : (0 : ℝ) < 15 / 16 ∧ 2 * (1 / 2 ^ 1022 : ℝ) < 1 - 15 / 16 :=
  ⟨by norm_num, tiny_conf one_two_float.2.1 (by norm_num) (by norm_num)⟩

theorem range_two : Flt.fin (2 * 0) ≤ rF ieeeRound ((Flt.fin (2 : ℝ)).sub (.fin 0)) := by
  rw [Flt.sub_fin, rF, mul_zero, Flt.fin_le_fin]
  exact ieeeRound_monoRounding.nonneg (by norm_num)

example (method : EBMethod) (hme : method ≠ .other) (counts : List (List Nat)) (hd : method = .boot → ValidDraws 2 1000 counts) :=
  C128_mean_and_EB ieeeLib_sign ieeeRound_gradual ieeeRound_halves (by norm_num) (xs := subnormal) (by simp [subnormal])
    subnormal_size subnormal_float subnormal_limits.2.2.2.1 subnormal_limits.2.2.2.2.1 subnormal_limits.1 subnormal_limits.2.1
    conf_ok.1 conf_ok.2 method hme counts hd (b := 0) le_rfl one_two_float.2.2 range_two
example (method : EBMethod) (hme : method ≠ .other) (counts : List (List Nat)) (hd : method = .boot → ValidDraws 2 1000 counts) :=
  C128_test ieeeLib_sign ieeeRound_gradual ieeeRound_halves (by norm_num) (xs := subnormal) subnormal_size
    subnormal_limits.1 subnormal_limits.2.1 subnormal_gap method hme counts hd
example (method : EBMethod) (hme : method ≠ .other) (counts : List (List Nat)) (hd : method = .boot → ValidDraws 2 1000 counts) :=
  C128_combined ieeeLib_sign ieeeRound_gradual ieeeRound_halves (by norm_num) (xs := subnormal) (by simp [subnormal])
    subnormal_size subnormal_float subnormal_limits.2.2.2.1 subnormal_limits.2.2.2.2.1 subnormal_gap subnormal_limits.1
    subnormal_limits.2.1 conf_ok.1 conf_ok.2 method hme counts hd (b := 0) le_rfl one_two_float.2.2 range_two
example (draws : Draws) :=
  C128_cell ieeeLib_sign ieeeRound_gradual ieeeRound_halves (by norm_num) (xs := subnormal) (rs := [2, 0]) (by simp [subnormal]) rfl
    subnormal_size (ieee_safe (by norm_num [subnormal]) subnormal_limits.2.2.2) subnormal_limits.1 subnormal_limits.2.1
    subnormal_limits.2.2.1 conf_ok.1 conf_ok.2 .bernstein (by simp) draws (by simp)
example (draws : Draws) :=
  C128_cell_unpaired ieeeLib_sign ieeeRound_gradual ieeeRound_halves (by norm_num) (xs := subnormal) (rs := [2, 0]) (by simp [subnormal]) rfl
    subnormal_size subnormal_float (ieee_safe (by norm_num [subnormal]) subnormal_limits.2.2.2) subnormal_limits.1 subnormal_limits.2.1
    subnormal_limits.2.2.1 conf_ok.1 conf_ok.2 .bernstein (by simp) draws (by simp) false
example : meanR ieeeLib subnormal ≤ 2 :=
  C128_at_most ieeeLib_sign ieeeRound_gradual (by simp [subnormal]) (h := 2)
    (fun k hk => by
      have : k ≤ 2 := by simpa [subnormal] using hk
      have := ieeeRound_int (v := k * 2) (by rw [abs_of_nonneg (by positivity)]; omega)
      push_cast at this
      exact this)
    (fun x hx => Flt.fin_le_fin.1 (subnormal_limits.2.1 x hx).2)
example : 0 ≤ meanR ieeeLib subnormal :=
  C128_at_least ieeeLib_sign ieeeRound_gradual (by simp [subnormal]) (l := 0)
    (fun k hk => by rw [mul_zero]; exact one_two_float.2.2)
    (fun x hx => Flt.fin_le_fin.1 (subnormal_limits.2.1 x hx).1)
/-- The mean of the smallest double and 1/2 is accurate. -/
example := C128_mean (L := ieeeLib) rfl ieeeLib_sign.sum (xs := subnormal) (by simp [subnormal]) (by norm_num [subnormal]) subnormal_float

/-- A table of two methods with these losses. -/
noncomputable def subnormalTable : LossTable :=
  ⟨["L".toList], ["A".toList, "B".toList], 2, [(("L".toList, "A".toList), finVec subnormal), (("L".toList, "B".toList), finVec [2, 0])]⟩

theorem subnormalTable_A : HasLoss subnormalTable "L".toList "A".toList (finVec subnormal) := ⟨[], _, rfl, by simp, by simp⟩
theorem subnormalTable_B : HasLoss subnormalTable "L".toList "B".toList (finVec [2, 0]) :=
  ⟨[(("L".toList, "A".toList), finVec subnormal)], [], rfl, by simp, by simp⟩

theorem subnormalTable_hyp : ∀ metric ∈ subnormalTable.metrics, ∃ lower upper : Flt ℝ,
    LimitsOf [("L".toList, (Flt.fin 0, Flt.fin (2 : ℝ)))] metric lower upper ∧ ValidLimits lower upper ∧ IeeeLimits lower upper ∧
    (∀ l, lower = .fin l → ∃ v : ℤ, l = v ∧ subnormalTable.nrows * |v| ≤ 2 ^ 53) ∧
    (∀ h, upper = .fin h → ∃ v : ℤ, h = v ∧ subnormalTable.nrows * |v| ≤ 2 ^ 53) ∧
      ∀ method ∈ subnormalTable.methods, ∃ xs : List ℝ,
        HasLoss subnormalTable metric method (finVec xs) ∧ xs.length = subnormalTable.nrows ∧ Within lower upper xs ∧
        ∀ x ∈ xs, ieeeRound x = x := by
  intro metric hm
  simp only [subnormalTable, List.mem_singleton] at hm
  subst hm
  refine ⟨.fin 0, .fin 2, .given [] [] _ _ rfl (by simp), subnormal_limits.1, subnormal_limits.2.2.2,
    fun l hl => ⟨0, by rw [← Flt.fin.inj hl]; simp, by simp⟩, fun l hl => ⟨2, by rw [← Flt.fin.inj hl]; simp, by simp [subnormalTable]⟩,
    fun method hm => ?_⟩
  simp only [subnormalTable, List.mem_cons, List.not_mem_nil, or_false] at hm
  rcases hm with rfl | rfl
  · exact ⟨_, subnormalTable_A, rfl, subnormal_limits.2.1, subnormal_float⟩
  · refine ⟨_, subnormalTable_B, rfl, subnormal_limits.2.2.1, fun x hx => ?_⟩
    simp only [List.mem_cons, List.not_mem_nil, or_false] at hx
    rcases hx with rfl | rfl
    · exact one_two_float.1
    · exact one_two_float.2.2

/-- The table is produced with and without `pairwise_CI`. -/
example (pw : Bool) : ∃ out, lossSummaryTableR ieeeLib subnormalTable "A".toList pw (.fin (15 / 16))
    .bernstein [("L".toList, (Flt.fin 0, Flt.fin 2))] (fun _ _ => ⟨[], []⟩) = .ok out := by
  cases pw with
  | true =>
    obtain ⟨out, h, -⟩ := C128_ieee_paired ieeeLib_sign rfl (tbl := subnormalTable) (refMethod := "A".toList) one_two_float.2.1
      (by norm_num) (by norm_num) (methodEB := .bernstein) (by simp) (limits := [("L".toList, (Flt.fin 0, Flt.fin 2))])
      (draws := fun _ _ => ⟨[], []⟩) (by simp) (by simp [subnormalTable]) (by simp [subnormalTable]) (by simp [subnormalTable])
      (by simp [subnormalTable]) (fun metric hm => by
        obtain ⟨lo, hi, a, b, s, -, -, d⟩ := subnormalTable_hyp metric hm
        exact ⟨lo, hi, a, b, s, fun method hm => (d method hm).imp fun xs h => ⟨h.1, h.2.1, h.2.2.1⟩⟩)
    exact ⟨out, h⟩
  | false =>
    obtain ⟨out, h, -⟩ := C128_ieee_integers ieeeLib_sign rfl (tbl := subnormalTable) (refMethod := "A".toList) one_two_float.2.1
      (by norm_num) (by norm_num) (methodEB := .bernstein) (by simp) (limits := [("L".toList, (Flt.fin 0, Flt.fin 2))])
      (draws := fun _ _ => ⟨[], []⟩) (by simp) (by simp [subnormalTable]) (by simp [subnormalTable]) (by simp [subnormalTable])
      (by simp [subnormalTable]) (fun metric hm => by
        obtain ⟨lo, hi, a, b, s, i1, i2, d⟩ := subnormalTable_hyp metric hm
        exact ⟨lo, hi, a, b, i1, i2, d⟩)
    exact ⟨out, h⟩
example (draws : Str → Str → Draws) := C128_ieee_unpaired ieeeLib_sign rfl (tbl := subnormalTable) (refMethod := "A".toList) one_two_float.2.1
  (by norm_num) (by norm_num) (methodEB := .t) (by simp) (limits := [("L".toList, (Flt.fin 0, Flt.fin 2))])
  (draws := draws) (by simp) (by simp [subnormalTable]) (by simp [subnormalTable]) (by simp [subnormalTable])
  (by simp [subnormalTable]) (fun metric hm => by
    obtain ⟨lo, hi, a, b, s, -, -, d⟩ := subnormalTable_hyp metric hm
    exact ⟨lo, hi, a, b, s, d⟩)

end Mlp.Props
