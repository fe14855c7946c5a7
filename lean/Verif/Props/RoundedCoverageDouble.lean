import Verif.Props.RoundedCoverage
import Verif.Props.LossAccuracyDouble

/-! # C133, C134 and C135 in double precision -/

namespace Mlp.Props
open Mlp.Paper Mlp.PaperR Mlp.PerfR Mlp.BootR Mlp.Boot Mlp.Spec Mlp.Lemmas Mlp.Round MeasureTheory ProbabilityTheory

/-- The quantiles of the library in double precision are as accurate as C133 asks for. -/
theorem doubleLib_quantile {n : ℕ} (h2 : 2 ≤ n) {c : ℝ} (h0 : 0 < c) (h1 : c < 1) :
    AccurateQuantile (1 / 2 ^ 53) doubleLib n c ((studentT (n - 1)).ppf ((1 + c) / 2)) := by
  have hs := studentT_isSymmetric (ν := n - 1) (by omega)
  have hm : max (n - 1) 1 = n - 1 := by omega
  have hpos := hs.ppf_pos (q := (1 + c) / 2) (by linarith) (by linarith)
  have hneg : (studentT (n - 1)).ppf ((1 - c) / 2) = -(studentT (n - 1)).ppf ((1 + c) / 2) := by
    have := hs.ppf_neg (q := (1 + c) / 2) (by linarith) (by linarith)
    rw [← this]
    congr 1
    ring
  have hr := binary64_relError ((studentT (n - 1)).ppf ((1 + c) / 2))
  rw [abs_of_pos hpos] at hr
  constructor
  · change |binary64 ((studentT (max (n - 1) 1)).ppf ((1 - c) / 2)) + _| ≤ _
    rw [hm, hneg, binary64_floatRounding.neg, neg_add_eq_sub, abs_sub_comm]
    exact hr
  · change |binary64 ((studentT (max (n - 1) 1)).ppf ((1 + c) / 2)) - _| ≤ _
    rw [hm]
    exact hr

/-- C133: the error bars of three numbers in double precision. -/
example : ∃ e eR : ℝ, tEB studentT (finVec [1, 2, 4]) (.fin (19 / 20)) = .ok (.fin e) ∧
    tEBR doubleLib (finVec [1, 2, 4]) (.fin (19 / 20)) = .ok (.fin eR) ∧ |eR - e| ≤ 1 / 10 ^ 14 * e +
      1 / 10 ^ 14 * ((studentT 2).ppf ((1 + 19 / 20) / 2)) := by
  obtain ⟨e, eR, h1, h2, -, h3⟩ := C133_t_EB doubleLib_accurate doubleLib_good.sum (xs := [1, 2, 4]) (by simp) (by norm_num) (T := studentT)
    (studentT_isSymmetric (by simp)) (c := 19 / 20) (by norm_num) (by norm_num) (doubleLib_quantile (by simp) (by norm_num) (by norm_num))
  refine ⟨e, eR, h1, h2, h3.trans ?_⟩
  obtain ⟨e', he', hp, -, -⟩ := C45_t_EB studentT (xs := [1, 2, 4]) (by simp) (studentT_isSymmetric (by simp)) (c := 19 / 20) (by norm_num) (by norm_num)
  rw [h1] at he'
  simp only [Except.ok.injEq, Flt.fin.injEq] at he'
  subst he'
  have hq := ((studentT_isSymmetric (ν := 2) (by simp)).ppf_pos (q := (1 + 19 / 20) / 2) (by norm_num) (by norm_num)).le
  have hs : (1 : ℝ) ≤ Real.sqrt 3 := by rw [Real.one_le_sqrt]; norm_num
  have ha : avgAbs [1, 2, 4] = 7 / 3 := by norm_num [avgAbs, avg]
  have hdiv : (studentT 2).ppf ((1 + 19 / 20) / 2) / Real.sqrt 3 ≤ (studentT 2).ppf ((1 + 19 / 20) / 2) := div_le_self hq hs
  have e3 : ((List.length [(1 : ℝ), 2, 4] : ℕ) : ℝ) = 3 := by simp
  rw [ha, e3]
  change 14 * (3 * (1 / 2 ^ 53)) * e + 5 * (3 * (1 / 2 ^ 53)) * (7 / 3 * ((studentT 2).ppf ((1 + 19 / 20) / 2) / Real.sqrt 3)) ≤ _
  have t1 : 14 * (3 * (1 / 2 ^ 53)) * e ≤ 1 / 10 ^ 14 * e := mul_le_mul_of_nonneg_right (by norm_num) hp
  have t2 : 5 * (3 * (1 / 2 ^ 53)) * (7 / 3 * ((studentT 2).ppf ((1 + 19 / 20) / 2) / Real.sqrt 3)) ≤
      5 * (3 * (1 / 2 ^ 53)) * (7 / 3 * (studentT 2).ppf ((1 + 19 / 20) / 2)) :=
    mul_le_mul_of_nonneg_left (mul_le_mul_of_nonneg_left hdiv (by norm_num)) (by norm_num)
  have t3 : 5 * (3 * (1 / 2 ^ 53)) * (7 / 3 * (studentT 2).ppf ((1 + 19 / 20) / 2)) ≤ 1 / 10 ^ 14 * (studentT 2).ppf ((1 + 19 / 20) / 2) := by
    rw [← mul_assoc]
    exact mul_le_mul_of_nonneg_right (by norm_num) hq
  linarith

/-- C133: the Bernstein bounds of three numbers, alone and clipped by `get_mean_and_EB`. -/
example : (∃ e eR : ℝ, bernsteinEB (finVec [1, 2, 4]) (.fin 0) (.fin 4) (.fin (19 / 20)) = .ok (.fin e) ∧
      bernsteinEBR doubleLib (finVec [1, 2, 4]) (.fin 0) (.fin 4) (.fin (19 / 20)) = .ok (.fin eR) ∧ 0 ≤ eR) ∧
    (∃ muR e eR : ℝ, getMeanEB studentT (finVec [1, 2, 4]) (.fin (19 / 20)) (.fin 1) (.fin 0) (.fin 4) .bernstein [] = .ok (.fin (avg [1, 2, 4]), .fin e) ∧
      getMeanEBR doubleLib (finVec [1, 2, 4]) (.fin (19 / 20)) (.fin 1) (.fin 0) (.fin 4) .bernstein [] = .ok (.fin muR, .fin eR) ∧
      |muR - avg [1, 2, 4]| ≤ 1 / 10 ^ 14) := by
  constructor
  · obtain ⟨e, eR, h1, h2, h3, -⟩ := C133_bernstein_EB doubleLib_accurate doubleLib_good.sum (xs := [1, 2, 4]) (by simp) (by norm_num)
      (lo := 0) (hi := 4) (by norm_num) (by intro x hx; fin_cases hx <;> norm_num) (c := 19 / 20) (by norm_num) (by norm_num)
    exact ⟨e, eR, h1, h2, h3⟩
  · obtain ⟨muR, e, eR, h1, h2, h3, -⟩ := C133_mean_and_EB_bernstein doubleLib_good doubleLib_accurate studentT (xs := [1, 2, 4]) (by simp) (by norm_num)
      (l := 0) (h := 4) (by norm_num) (by intro x hx; fin_cases hx <;> norm_num) (c := 19 / 20) (by norm_num) (by norm_num) (b := 1) (by norm_num)
      binary64_floatRounding.one (by norm_num) []
    refine ⟨muR, e, eR, h1, h2, h3.trans ?_⟩
    norm_num

/-- C133: `get_mean_and_EB` with method `'t'` on three numbers, with finite limits and without. -/
example : (∃ muR e eR : ℝ, getMeanEB studentT (finVec [1, 2, 4]) (.fin (19 / 20)) (.fin 1) (.fin 0) (.fin 4) .t [] = .ok (.fin (avg [1, 2, 4]), .fin e) ∧
      getMeanEBR doubleLib (finVec [1, 2, 4]) (.fin (19 / 20)) (.fin 1) (.fin 0) (.fin 4) .t [] = .ok (.fin muR, .fin eR) ∧
      |muR - avg [1, 2, 4]| ≤ 1 / 10 ^ 14) ∧
    (∃ muR e eR : ℝ, getMeanEB studentT (finVec [1, 2, 4]) (.fin (19 / 20)) (.fin 1) .ninf .pinf .t [] = .ok (.fin (avg [1, 2, 4]), .fin e) ∧
      getMeanEBR doubleLib (finVec [1, 2, 4]) (.fin (19 / 20)) (.fin 1) .ninf .pinf .t [] = .ok (.fin muR, .fin eR) ∧
      |muR - avg [1, 2, 4]| ≤ 1 / 10 ^ 14) := by
  have hq := ((studentT_isSymmetric (ν := 2) (by simp)).ppf_pos (q := (1 + 19 / 20) / 2) (by norm_num) (by norm_num)).le
  constructor
  · obtain ⟨muR, e, eR, h1, h2, h3, -⟩ := C133_mean_and_EB_t doubleLib_good doubleLib_accurate (T := studentT) (xs := [1, 2, 4]) (by simp) (by norm_num)
      (l := 0) (h := 4) (by norm_num) (by intro x hx; fin_cases hx <;> norm_num) (c := 19 / 20) (by norm_num) (by norm_num) (b := 1) (by norm_num)
      binary64_floatRounding.one (by norm_num) [] hq
      (fun _ => ⟨studentT_isSymmetric (by simp), rfl, doubleLib_quantile (by simp) (by norm_num) (by norm_num)⟩)
    refine ⟨muR, e, eR, h1, h2, h3.trans ?_⟩
    norm_num
  · obtain ⟨muR, e, eR, h1, h2, h3, -⟩ := C133_mean_and_EB_t_open doubleLib_good doubleLib_accurate (T := studentT) (xs := [1, 2, 4]) (by simp) (by norm_num)
      (lower := .ninf) (upper := .pinf) (by simp [ValidLimits]) (by intro x hx; simp) (.inl rfl) (c := 19 / 20) (by norm_num) (by norm_num)
      (b := 1) (by norm_num) binary64_floatRounding.one [] (studentT_isSymmetric (by simp)) (doubleLib_quantile (by simp) (by norm_num) (by norm_num))
    refine ⟨muR, e, eR, h1, h2, h3.trans ?_⟩
    norm_num [avgAbs, avg]

/-- The entries of a table of two methods. -/
theorem two_cells {L : Lib ℝ} {tbl : LossTable} {refMethod m a b : Str} (hm : tbl.metrics = [m]) (hme : tbl.methods = [a, b]) {pairwise : Bool}
    {confidence : Flt ℝ} {methodEB : EBMethod} {limits : List (Str × (Flt ℝ × Flt ℝ))}
    {draws : Str → Str → Draws} {out : List (List (Flt ℝ × Flt ℝ × Flt ℝ))}
    (h : lossSummaryTableR L tbl refMethod pairwise confidence methodEB limits draws = .ok out) : ∃ x y, out = [[x, y]] := by
  obtain ⟨-, -, -, h⟩ := summaryR_ok.1 h
  rw [hm] at h
  cases h with
  | cons h1 h2 =>
    cases h2
    obtain ⟨lo, hi, lr, -, -, -, -, -, h⟩ := h1
    rw [hme] at h
    cases h with
    | cons ha h3 =>
      cases h3 with
      | cons hb h4 =>
        cases h4
        exact ⟨_, _, rfl⟩

/-- C134 on the table `exTable` in double precision: the mean of method `B` is accurate to 15 digits, and so is its error bar up to a multiple of
the quantile. -/
example (pw : Bool) : ∃ a b aR bR : Flt ℝ × Flt ℝ × Flt ℝ,
    lossSummaryTable studentT exTable "A".toList pw (.fin (19 / 20)) .t [("L".toList, (Flt.fin 0, Flt.fin 2))] (fun _ _ => ⟨[], []⟩) = .ok [[a, b]] ∧
    lossSummaryTableR doubleLib exTable "A".toList pw (.fin (19 / 20)) .t [("L".toList, (Flt.fin 0, Flt.fin 2))] (fun _ _ => ⟨[], []⟩) = .ok [[aR, bR]] ∧
    (∃ m mR : ℝ, b.1 = .fin m ∧ bR.1 = .fin mR ∧ |mR - m| ≤ 1 / 10 ^ 15) ∧
    (∃ e eR : ℝ, b.2.1 = .fin e ∧ bR.2.1 = .fin eR ∧ |eR - e| ≤ (38 * (studentT 1).ppf ((1 + 19 / 20) / 2) + 7) / 10 ^ 15) := by
  have h53 : (exTable.nrows : ℝ) * (1 / 2 ^ 53) ≤ 1 / 1000000 := by norm_num [exTable]
  obtain ⟨out, ho⟩ := exTable_success pw
  obtain ⟨a, b, rfl⟩ : ∃ a b, out = [[a, b]] := by
    have h := C51_cells ho
    simp only [exTable] at h
    cases h with
    | cons h1 h2 =>
      cases h2
      cases h1 with
      | cons ha h3 =>
        cases h3 with
        | cons hb h4 =>
          cases h4
          exact ⟨_, _, rfl⟩
  obtain ⟨outR, hoR⟩ : ∃ out, lossSummaryTableR doubleLib exTable "A".toList pw (.fin (19 / 20)) .t [("L".toList, (Flt.fin 0, Flt.fin 2))]
      (fun _ _ => ⟨[], []⟩) = .ok out := by
    cases pw with
    | true =>
      obtain ⟨out, h, -⟩ := C108_table doubleLib_good (u := 1 / 2 ^ 53) (by norm_num) binary64_relError binary64_halves (by norm_num)
        (tbl := exTable) (refMethod := "A".toList) (c := 19 / 20) (by norm_num) (by norm_num) (methodEB := .t) (by simp)
        (limits := [("L".toList, (Flt.fin 0, Flt.fin 2))]) (draws := fun _ _ => ⟨[], []⟩) (by intro h; cases h) (by simp [exTable])
        (by simp [exTable]) h53 (by simp [exTable]) (fun metric hm => by
          obtain ⟨lo, hi, a, b, -, -, c⟩ := exTable_hyp metric hm
          exact ⟨lo, hi, a, b, c⟩)
      exact ⟨out, h⟩
    | false =>
      obtain ⟨out, h, -⟩ := C109_table_grid doubleLib_good (u := 1 / 2 ^ 53) (by norm_num) binary64_relError binary64_halves (by norm_num)
        (tbl := exTable) (refMethod := "A".toList) (c := 19 / 20) (by norm_num) (by norm_num) (methodEB := .t) (by simp)
        (limits := [("L".toList, (Flt.fin 0, Flt.fin 2))]) (draws := fun _ _ => ⟨[], []⟩) (by intro h; cases h) (by simp [exTable])
        (by simp [exTable]) h53 (by simp [exTable]) exTable_hyp
      exact ⟨out, h⟩
  obtain ⟨aR, bR, rfl⟩ := two_cells rfl rfl hoR
  have hq := ((studentT_isSymmetric (ν := 1) (by simp)).ppf_pos (q := (1 + 19 / 20) / 2) (by norm_num) (by norm_num)).le
  obtain ⟨⟨m, mR, k1, k2, k3⟩, k4, k5⟩ := C134_t (xs := [1, 1 / 2]) (rs := [0, 1]) (cell := b) (cellR := bR) (metric := "L".toList) (method := "B".toList)
    doubleLib_good doubleLib_accurate (by norm_num) (by norm_num)
    ⟨0, 1, [a, b], rfl, rfl, rfl, rfl⟩ ⟨0, 1, [aR, bR], rfl, rfl, rfl, rfl⟩ exTable_B exTable_A rfl (by norm_num) (by simp) ho hoR exTable_limits hq
    (fun _ => ⟨studentT_isSymmetric (by simp), rfl, doubleLib_quantile (by simp) (by norm_num) (by norm_num)⟩)
  refine ⟨a, b, aR, bR, ho, hoR, ⟨m, mR, k1, k2, k3.trans (by norm_num)⟩, ?_⟩
  cases pw with
  | true =>
    obtain ⟨e, eR, h1, h2, h3⟩ := k5 rfl (by simp)
    refine ⟨e, eR, h1, h2, h3.trans ?_⟩
    norm_num
    linarith
  | false =>
    obtain ⟨e, eR, h1, h2, h3⟩ := k4 rfl
    refine ⟨e, eR, h1, h2, h3.trans ?_⟩
    norm_num
    linarith

/-- The coin table in double precision. -/
theorem coinTable_double (pairwise : Bool) (ω : Fin 10 → Bool) : ∃ out, lossSummaryTableR doubleLib (coinTable ω)
    "A".toList pairwise (.fin (19 / 20)) .bernstein [("L".toList, (Flt.fin (-1), Flt.fin 1))] (fun _ _ => ⟨[], []⟩) = .ok out := by
  have h53 : ((coinTable ω).nrows : ℝ) * (1 / 2 ^ 53) ≤ 1 / 1000000 := by norm_num [coinTable]
  have hyp : ∀ metric ∈ (coinTable ω).metrics, ∃ lower upper : Flt ℝ, LimitsOf [("L".toList, (Flt.fin (-1), Flt.fin (1 : ℝ)))] metric lower upper ∧
      ValidLimits lower upper ∧ GridLimit binary64 (coinTable ω).nrows lower ∧ GridLimit binary64 (coinTable ω).nrows upper ∧
      ∀ method ∈ (coinTable ω).methods, ∃ xs : List ℝ,
        HasLoss (coinTable ω) metric method (finVec xs) ∧ xs.length = (coinTable ω).nrows ∧ Within lower upper xs := by
    intro metric hm
    simp only [coinTable, List.mem_singleton] at hm
    subst hm
    refine ⟨.fin (-1), .fin 1, coin_losses.limits, by simp [ValidLimits], ?_, ?_, fun method hme => ?_⟩
    · have := C109_integer_limit (n := (coinTable ω).nrows) (v := -1) (by simp [coinTable])
      simpa using this
    · have := C109_integer_limit (n := (coinTable ω).nrows) (v := 1) (by simp [coinTable])
      simpa using this
    simp only [coinTable, List.mem_cons, List.not_mem_nil, or_false] at hme
    rcases hme with rfl | rfl
    · refine ⟨_, coin_losses.ref ω, observed_length _ ω, fun x hx => ?_⟩
      simpa using observed_within coin_losses.boundY ω x hx
    · refine ⟨_, coin_losses.meth ω, observed_length _ ω, fun x hx => ?_⟩
      simpa using observed_within coin_losses.boundX ω x hx
  cases pairwise with
  | true =>
    obtain ⟨out, h, -⟩ := C108_table doubleLib_good (u := 1 / 2 ^ 53) (by norm_num) binary64_relError binary64_halves (by norm_num)
      (tbl := coinTable ω) (refMethod := "A".toList) (c := 19 / 20) (by norm_num) (by norm_num) (methodEB := .bernstein) (by simp)
      (limits := [("L".toList, (Flt.fin (-1), Flt.fin 1))]) (draws := fun _ _ => ⟨[], []⟩) (by intro h; cases h) (by simp [coinTable])
      (by simp [coinTable]) h53 (by simp [coinTable]) (fun metric hm => by
        obtain ⟨lo, hi, a, b, -, -, c⟩ := hyp metric hm
        exact ⟨lo, hi, a, b, c⟩)
    exact ⟨out, h⟩
  | false =>
    obtain ⟨out, h, -⟩ := C109_table_grid doubleLib_good (u := 1 / 2 ^ 53) (by norm_num) binary64_relError binary64_halves (by norm_num)
      (tbl := coinTable ω) (refMethod := "A".toList) (c := 19 / 20) (by norm_num) (by norm_num) (methodEB := .bernstein) (by simp)
      (limits := [("L".toList, (Flt.fin (-1), Flt.fin 1))]) (draws := fun _ _ => ⟨[], []⟩) (by intro h; cases h) (by simp [coinTable])
      (by simp [coinTable]) h53 (by simp [coinTable]) hyp
    exact ⟨out, h⟩

theorem coinTable_double_cells (pairwise : Bool) : ∃ a b : (Fin 10 → Bool) → Flt ℝ × Flt ℝ × Flt ℝ, ∀ ω, lossSummaryTableR doubleLib (coinTable ω)
    "A".toList pairwise (.fin (19 / 20)) .bernstein [("L".toList, (Flt.fin (-1), Flt.fin 1))] (fun _ _ => ⟨[], []⟩) = .ok [[a ω, b ω]] := by
  have h : ∀ ω, ∃ a b, lossSummaryTableR doubleLib (coinTable ω)
      "A".toList pairwise (.fin (19 / 20)) .bernstein [("L".toList, (Flt.fin (-1), Flt.fin 1))] (fun _ _ => ⟨[], []⟩) = .ok [[a, b]] := by
    intro ω
    obtain ⟨out, ho⟩ := coinTable_double pairwise ω
    obtain ⟨a, b, rfl⟩ := two_cells rfl rfl ho
    exact ⟨a, b, ho⟩
  choose a b hab using h
  exact ⟨a, b, hab⟩

/-- C134 on the coin table: the Bernstein error bars in double precision and in exact arithmetic. -/
example (pw : Bool) (ω : Fin 10 → Bool) : ∃ a b aR bR : Flt ℝ × Flt ℝ × Flt ℝ,
    lossSummaryTable studentT (coinTable ω) "A".toList pw (.fin (19 / 20)) .bernstein [("L".toList, (Flt.fin (-1), Flt.fin 1))]
      (fun _ _ => ⟨[], []⟩) = .ok [[a, b]] ∧
    lossSummaryTableR doubleLib (coinTable ω) "A".toList pw (.fin (19 / 20)) .bernstein [("L".toList, (Flt.fin (-1), Flt.fin 1))]
      (fun _ _ => ⟨[], []⟩) = .ok [[aR, bR]] ∧
    ∃ e eR : ℝ, b.2.1 = .fin e ∧ bR.2.1 = .fin eR ∧ |eR - e| ≤ Real.log (3 / (1 - 19 / 20)) / 10 ^ 12 := by
  obtain ⟨out, ho⟩ := coinTable_success pw ω
  obtain ⟨a, b, rfl⟩ : ∃ a b, out = [[a, b]] := by
    have h := C51_cells ho
    simp only [coinTable] at h
    cases h with
    | cons h1 h2 =>
      cases h2
      cases h1 with
      | cons ha h3 =>
        cases h3 with
        | cons hb h4 =>
          cases h4
          exact ⟨_, _, rfl⟩
  obtain ⟨outR, hoR⟩ := coinTable_double pw ω
  obtain ⟨aR, bR, rfl⟩ := two_cells rfl rfl hoR
  have ha : 0 ≤ Real.log (3 / (1 - 19 / 20)) := Real.log_nonneg (by norm_num)
  have hl : (observed (fun i ω => -toss 10 i ω) ω).length = 10 := observed_length _ ω
  obtain ⟨-, k4, k5⟩ := C134_bernstein (cell := b) (cellR := bR) (metric := "L".toList) (method := "B".toList)
    doubleLib_good doubleLib_accurate (by norm_num) (by norm_num)
    ⟨0, 1, [a, b], rfl, rfl, rfl, rfl⟩ ⟨0, 1, [aR, bR], rfl, rfl, rfl, rfl⟩ (coin_losses.meth ω) (coin_losses.ref ω)
    (by rw [observed_length, observed_length]) (by rw [hl]; norm_num) (observed_ne_nil (by norm_num) _ ω) ho hoR coin_losses.limits
  refine ⟨a, b, aR, bR, ho, hoR, ?_⟩
  rw [hl] at k4 k5
  cases pw with
  | true =>
    obtain ⟨e, eR, h1, h2, h3⟩ := k5 rfl (by simp)
    refine ⟨e, eR, h1, h2, h3.trans ?_⟩
    set x := Real.log (3 / (1 - 19 / 20))
    norm_num
    linarith
  | false =>
    obtain ⟨e, eR, h1, h2, h3⟩ := k4 rfl
    refine ⟨e, eR, h1, h2, h3.trans ?_⟩
    set x := Real.log (3 / (1 - 19 / 20))
    norm_num
    linarith

/-- C134 on a table without limits, for method `B` in comparison with the reference. -/
example {out outR : List (List (Flt ℝ × Flt ℝ × Flt ℝ))} {cell cellR : Flt ℝ × Flt ℝ × Flt ℝ}
    (ho : lossSummaryTable studentT exTable "A".toList true (.fin (19 / 20)) .t [] (fun _ _ => ⟨[], []⟩) = .ok out)
    (hoR : lossSummaryTableR doubleLib exTable "A".toList true (.fin (19 / 20)) .t [] (fun _ _ => ⟨[], []⟩) = .ok outR)
    (hc : SummaryCell exTable out "L".toList "B".toList cell) (hcR : SummaryCell exTable outR "L".toList "B".toList cellR) :
    ∃ e eR : ℝ, cell.2.1 = .fin e ∧ cellR.2.1 = .fin eR ∧ |eR - e| ≤ (studentT 1).ppf ((1 + 19 / 20) / 2) * (((2 : ℕ) : ℝ) * (1 / 2 ^ 53)) *
      (15 * stdErr (List.zipWith (· - ·) [1, 1 / 2] [0, 1]) + 7 * (avgAbs (List.zipWith (· - ·) [1, 1 / 2] [0, 1]) / Real.sqrt ((2 : ℕ) : ℝ))) :=
  (C134_t_open (xs := [1, 1 / 2]) (rs := [0, 1]) doubleLib_good doubleLib_accurate (by norm_num) (by norm_num) hc hcR exTable_B exTable_A rfl (by norm_num)
    (by simp) ho hoR (.default (by simp)) (by simp [ValidLimits]) (.inl rfl) (studentT_isSymmetric (by simp))
    (doubleLib_quantile (by simp) (by norm_num) (by norm_num))).2.2 rfl (by simp)

/-- Both tables exist. -/
example : (∃ out, lossSummaryTable studentT exTable "A".toList true (.fin (19 / 20)) .t [] (fun _ _ => ⟨[], []⟩) = .ok out) ∧
    ∃ out, lossSummaryTableR doubleLib exTable "A".toList true (.fin (19 / 20)) .t [] (fun _ _ => ⟨[], []⟩) = .ok out := by
  have hyp : ∀ metric ∈ exTable.metrics, ∃ lower upper : Flt ℝ, LimitsOf [] metric lower upper ∧ ValidLimits lower upper ∧
      ∀ method ∈ exTable.methods, ∃ xs : List ℝ, HasLoss exTable metric method (finVec xs) ∧ xs.length = exTable.nrows ∧ Within lower upper xs := by
    intro metric hm
    simp only [exTable, List.mem_singleton] at hm
    subst hm
    refine ⟨.ninf, .pinf, .default (by simp), by simp [ValidLimits], fun method hme => ?_⟩
    simp only [exTable, List.mem_cons, List.not_mem_nil, or_false] at hme
    rcases hme with rfl | rfl
    · exact ⟨_, exTable_A, rfl, fun x hx => by simp⟩
    · exact ⟨_, exTable_B, rfl, fun x hx => by simp⟩
  constructor
  · exact C52_success studentT true (by norm_num) (by norm_num) (by simp) (fun _ => studentT_isSymmetric (by simp [exTable])) (by simp)
      (by simp [exTable]) (by simp [exTable]) (by simp [exTable]) hyp
  · obtain ⟨out, h, -⟩ := C108_table doubleLib_good (u := 1 / 2 ^ 53) (by norm_num) binary64_relError binary64_halves (by norm_num)
      (tbl := exTable) (refMethod := "A".toList) (c := 19 / 20) (by norm_num) (by norm_num) (methodEB := .t) (by simp)
      (limits := []) (draws := fun _ _ => ⟨[], []⟩) (by intro h; cases h) (by simp [exTable])
      (by simp [exTable]) (by norm_num [exTable]) (by simp [exTable]) hyp
    exact ⟨out, h⟩

/-- C135 on the coin table in double precision, without `pairwise_CI`. -/
example : ∃ a b : (Fin 10 → Bool) → Flt ℝ × Flt ℝ × Flt ℝ,
    (∀ ω, lossSummaryTableR doubleLib (coinTable ω) "A".toList false (.fin (19 / 20)) .bernstein [("L".toList, (Flt.fin (-1), Flt.fin 1))]
      (fun _ _ => ⟨[], []⟩) = .ok [[a ω, b ω]]) ∧
    Likely (Measure.pi fun _ : Fin 10 => fairCoin) (19 / 20) {ω | ∃ mu e : ℝ, (b ω).1 = .fin mu ∧ (b ω).2.1 = .fin e ∧
      |mu - 0| ≤ e + 132 * (((10 : ℕ) : ℝ) * (1 / 2 ^ 53)) * (Real.log (3 / (1 - 19 / 20)) * max |-1| |1|)} := by
  obtain ⟨a, b, hab⟩ := coinTable_double_cells false
  exact ⟨a, b, hab, C135_error_bar doubleLib_good doubleLib_accurate coin_losses (by norm_num) (by norm_num) (by norm_num) hab
    fun ω => ⟨0, 1, _, rfl, rfl, rfl, rfl⟩⟩

/-- C135 on the coin table in double precision, with `pairwise_CI`. -/
example : ∃ a b : (Fin 10 → Bool) → Flt ℝ × Flt ℝ × Flt ℝ,
    (∀ ω, lossSummaryTableR doubleLib (coinTable ω) "A".toList true (.fin (19 / 20)) .bernstein [("L".toList, (Flt.fin (-1), Flt.fin 1))]
      (fun _ _ => ⟨[], []⟩) = .ok [[a ω, b ω]]) ∧
    Likely (Measure.pi fun _ : Fin 10 => fairCoin) (19 / 20) {ω | ∃ mu muRef e : ℝ, (b ω).1 = .fin mu ∧ (a ω).1 = .fin muRef ∧ (b ω).2.1 = .fin e ∧
      |(mu - muRef) - (0 - 0)| ≤ e + (4 * (((10 : ℕ) : ℝ) * (1 / 2 ^ 53)) * max |-1| |1| +
        138 * (((10 : ℕ) : ℝ) * (1 / 2 ^ 53)) * (Real.log (3 / (1 - 19 / 20)) * (1 - -1)))} := by
  obtain ⟨a, b, hab⟩ := coinTable_double_cells true
  exact ⟨a, b, hab, C135_pairwise doubleLib_good doubleLib_accurate coin_losses (by simp) (by norm_num) (by norm_num) (by norm_num) hab
    (fun ω => ⟨0, 1, _, rfl, rfl, rfl, rfl⟩) fun ω => ⟨0, 0, _, rfl, rfl, rfl, rfl⟩⟩

/-- A table with a method whose losses are the floats nearest to standard normal numbers and a reference with losses 0. -/
noncomputable def roundedNormalTable (ω : Fin 10 → ℝ) : LossTable :=
  ⟨["L".toList], ["A".toList, "B".toList], 10,
    [(("L".toList, "A".toList), finVec (observed (fun (_ : Fin 10) _ => 0) ω)),
     (("L".toList, "B".toList), finVec ((observed (fun i (ω : Fin 10 → ℝ) => ω i) ω).map doubleLib.rnd))]⟩

/-- The default limits of the table. -/
theorem roundedNormal_limits : LimitsOf ([] : List (Str × (Flt ℝ × Flt ℝ))) "L".toList .ninf .pinf := .default (by simp)

/-- The losses of the reference. -/
theorem roundedNormal_ref : ∀ ω, HasLoss (roundedNormalTable ω) "L".toList "A".toList (finVec (observed (fun (_ : Fin 10) _ => 0) ω)) :=
  fun ω => ⟨[], [(("L".toList, "B".toList), _)], rfl, by simp, by simp⟩

/-- The losses of the method. -/
theorem roundedNormal_meth : ∀ ω, HasLoss (roundedNormalTable ω) "L".toList "B".toList
      (finVec ((observed (fun i (ω : Fin 10 → ℝ) => ω i) ω).map doubleLib.rnd)) :=
  fun ω => ⟨[(("L".toList, "A".toList), _)], [], rfl, by simp, by simp⟩

/-- The table is returned in double precision, whatever the normal numbers. -/
theorem roundedNormal_success : ∀ ω, ∃ a b, lossSummaryTableR doubleLib (roundedNormalTable ω) "A".toList false (.fin (19 / 20)) .t
    [] (fun _ _ => ⟨[], []⟩) = .ok [[a, b]] := by
  intro ω
  obtain ⟨out, ho, -⟩ := C109_table_grid doubleLib_good (u := 1 / 2 ^ 53) (by norm_num) binary64_relError binary64_halves (by norm_num)
    (tbl := roundedNormalTable ω) (refMethod := "A".toList) (c := 19 / 20) (by norm_num) (by norm_num) (methodEB := .t) (by simp)
    (limits := []) (draws := fun _ _ => ⟨[], []⟩) (by intro h; cases h) (by simp [roundedNormalTable])
    (by simp [roundedNormalTable]) (by norm_num [roundedNormalTable]) (by simp [roundedNormalTable]) (fun metric hm => by
      simp only [roundedNormalTable, List.mem_singleton] at hm
      subst hm
      refine ⟨.ninf, .pinf, roundedNormal_limits, by simp [ValidLimits], by simp [GridLimit], by simp [GridLimit], fun method hme => ?_⟩
      simp only [roundedNormalTable, List.mem_cons, List.not_mem_nil, or_false] at hme
      rcases hme with rfl | rfl
      · exact ⟨_, roundedNormal_ref ω, observed_length _ ω, fun x hx => by simp⟩
      · exact ⟨_, roundedNormal_meth ω, by rw [List.length_map]; exact observed_length _ ω, fun x hx => by simp⟩)
  obtain ⟨a, b, rfl⟩ := two_cells rfl rfl ho
  exact ⟨a, b, ho⟩

/-- C135 on this table with the default limits. -/
example : ∃ a b : (Fin 10 → ℝ) → Flt ℝ × Flt ℝ × Flt ℝ,
    (∀ ω, lossSummaryTableR doubleLib (roundedNormalTable ω) "A".toList false (.fin (19 / 20)) .t [] (fun _ _ => ⟨[], []⟩) = .ok [[a ω, b ω]]) ∧
    Likely (Measure.pi fun _ : Fin 10 => gaussianReal 0 1) (19 / 20) {ω | ∃ mu e : ℝ, (b ω).1 = .fin mu ∧ (b ω).2.1 = .fin e ∧
      |mu - 0| ≤ e + (3 * (((10 : ℕ) : ℝ) * (1 / 2 ^ 53)) * avgAbs (observed (fun i (ω : Fin 10 → ℝ) => ω i) ω) +
        (studentT 9).ppf ((1 + 19 / 20) / 2) * (((10 : ℕ) : ℝ) * (1 / 2 ^ 53)) * (15 * stdErr (observed (fun i (ω : Fin 10 → ℝ) => ω i) ω) +
          7 * (avgAbs (observed (fun i (ω : Fin 10 → ℝ) => ω i) ω) / Real.sqrt ((10 : ℕ) : ℝ))))} := by
  choose a b hab using roundedNormal_success
  exact ⟨a, b, hab, C135_t doubleLib_good doubleLib_accurate (by norm_num) roundedNormal_limits roundedNormal_meth roundedNormal_ref (gauss_sample 10) (by norm_num) (by norm_num) (by norm_num) rfl
    (doubleLib_quantile (by norm_num) (by norm_num) (by norm_num)) hab fun ω => ⟨0, 1, _, rfl, rfl, rfl, rfl⟩⟩

end Mlp.Props
