import Verif.Props.TableFloats
import Verif.Props.RoundedCoverageDouble

/-! # C136 and C137 in double precision -/

namespace Mlp.Props
open Mlp Mlp.Sciprint Mlp.Paper Mlp.PaperR Mlp.PerfR Mlp.BootR Mlp.Boot Mlp.Spec Mlp.Lemmas Mlp.Round MeasureTheory ProbabilityTheory

/-- The clipped Bernstein error bar is not small in comparison with the range of the limits. -/
theorem bernstein_bar_lower {T : Nat → RefDist} {xs : List ℝ} (hn : 2 ≤ xs.length) {l h : ℝ} (hlh : l ≤ h) (hw : ∀ x ∈ xs, l ≤ x ∧ x ≤ h)
    {c : ℝ} (h0 : 0 < c) (h1 : c < 1) {counts : List (List Nat)} {m : Flt ℝ} {e : ℝ}
    (he : getMeanEB T (finVec xs) (.fin c) (.fin 0) (.fin l) (.fin h) .bernstein counts = .ok (m, .fin e)) :
    min (3 * Real.log 3 * (h - l) / xs.length) ((h - l) / 2) ≤ e := by
  obtain ⟨b1, b2, b3, -⟩ := C47_bernstein_EB hn hlh hw h0 h1
  unfold getMeanEB at he
  simp only [bind_ok_iff] at he
  obtain ⟨_, -, EB, hEB, mu, hmu, e', he', he⟩ := he
  simp only [pure_eq_ok, Except.ok.injEq, Prod.mk.injEq] at he
  obtain ⟨rfl, rfl⟩ := he
  rw [b1, Except.ok.injEq] at hEB
  subst hEB
  have hne : xs ≠ [] := by rintro rfl; simp at hn
  rw [mean_finVec hne] at hmu
  have ha := avg_mem hne (fun x hx => by simpa using hw x hx : Within (.fin l) (.fin h) xs)
  unfold Util.clipChk at hmu
  rw [assert_bind_ok] at hmu
  obtain ⟨-, hmu⟩ := hmu
  simp only [pure_eq_ok, Except.ok.injEq] at hmu
  have hid : (Flt.fin (avg xs)).clip (.fin l) (.fin h) = .fin (avg xs) := by
    unfold Flt.clip
    rw [if_neg (by rw [Flt.lt_iff' (by simp), not_lt]; exact ha.1), if_neg (by rw [Flt.lt_iff' (by simp), not_lt]; exact ha.2)]
  rw [hid] at hmu
  subst hmu
  unfold clipEB at he'
  simp only [assert_bind_ok] at he'
  obtain ⟨-, -, he'⟩ := he'
  split at he'
  · cases he'
  split at he'
  · cases he'
  rw [assert_bind_ok] at he'
  obtain ⟨-, he'⟩ := he'
  simp only [pure_eq_ok, Except.ok.injEq, Flt.sub_fin, Flt.fmax_fin] at he'
  unfold Flt.clip at he'
  split at he'
  · rename_i hlt
    rw [Flt.lt_iff' (by simp), Flt.fin_lt_fin] at hlt
    linarith
  · split at he'
    · simp only [Flt.fin.injEq] at he'
      rw [← he']
      refine (min_le_right _ _).trans ?_
      rcases le_total (avg xs) ((l + h) / 2) with g | g
      · exact le_max_of_le_left (by linarith)
      · exact le_max_of_le_right (by linarith)
    · simp only [Flt.fin.injEq] at he'
      rw [← he']
      exact (min_le_left _ _).trans b3


theorem log_three_bound : (1 : ℝ) ≤ Real.log 3 := one_lt_log_three.le

theorem log_sixty : Real.log (3 / (1 - 19 / 20)) ≤ 60 ∧ 0 ≤ Real.log (3 / (1 - 19 / 20)) := by
  have e : (3 : ℝ) / (1 - 19 / 20) = 60 := by norm_num
  rw [e]
  exact ⟨(Real.log_le_sub_one_of_pos (by norm_num)).trans (by norm_num), Real.log_nonneg (by norm_num)⟩

/-- The error bars of the coin table without `pairwise_CI`. -/
theorem coin_bar {ω : Fin 10 → Bool} {out : List (List (Flt ℝ × Flt ℝ × Flt ℝ))}
    (h : lossSummaryTableR doubleLib (coinTable ω) "A".toList false (.fin (19 / 20)) .bernstein [("L".toList, (Flt.fin (-1), Flt.fin 1))]
      (fun _ _ => ⟨[], []⟩) = .ok out) {method : Str} {cell : Flt ℝ × Flt ℝ × Flt ℝ} {xs : List ℝ}
    (hc : SummaryCell (coinTable ω) out "L".toList method cell) (hX : HasLoss (coinTable ω) "L".toList method (finVec xs))
    (hl : xs.length = 10) (hw : ∀ x ∈ xs, -1 ≤ x ∧ x ≤ 1) : ∃ mu e : ℝ, cell.1 = .fin mu ∧ cell.2.1 = .fin e ∧ |mu| ≤ 2 ∧ 1 / 2 ≤ e := by
  have hne : xs ≠ [] := by rintro rfl; simp at hl
  obtain ⟨f1, f2, -⟩ := summaryCellR (by simp) h hc coin_losses.limits hX (coin_losses.ref ω) hne
  obtain ⟨m, f2⟩ := f2 rfl
  obtain ⟨muR, e, eR, g1, g2, -, g4⟩ := C133_mean_and_EB_bernstein doubleLib_good doubleLib_accurate studentT hne (by rw [hl]; norm_num)
    (by norm_num) hw (c := 19 / 20) (by norm_num) (by norm_num) le_rfl binary64_floatRounding.zero (by norm_num) []
  have hlow := bernstein_bar_lower (by rw [hl]; norm_num) (by norm_num) hw (by norm_num) (by norm_num) g1
  rw [f2] at g2
  simp only [Except.ok.injEq, Prod.mk.injEq] at g2
  refine ⟨_, eR, f1, g2.2, ?_, ?_⟩
  · have hmean := C111_mean doubleLib_accurate.nonneg doubleLib_accurate.rnd doubleLib_good.sum hne (by rw [hl]; norm_num)
    have hs := C111_scale hne hw
    have ha := avg_mem hne (fun x hx => by simpa using hw x hx : Within (.fin (-1)) (.fin 1) xs)
    simp only [Flt.fin_le_fin] at ha
    rw [hl] at hmean
    norm_num at hmean hs
    have := abs_le.1 hmean
    have h0 := avgAbs_nonneg xs
    rw [abs_le]
    constructor <;> linarith [this.1, this.2, ha.1, ha.2]
  · have h3 := log_three_bound
    have h6 := log_sixty
    rw [hl] at g4 hlow
    have hm : (3 / 5 : ℝ) ≤ min (3 * Real.log 3 * (1 - -1) / ((10 : ℕ) : ℝ)) ((1 - -1) / 2) := by
      refine le_min ?_ (by norm_num)
      norm_num
      linarith
    have := (abs_le.1 g4).1
    norm_num at this h6
    linarith

/-- The error bar of the coin table with `pairwise_CI`. -/
theorem coin_bar_pairwise {ω : Fin 10 → Bool} {out : List (List (Flt ℝ × Flt ℝ × Flt ℝ))}
    (h : lossSummaryTableR doubleLib (coinTable ω) "A".toList true (.fin (19 / 20)) .bernstein [("L".toList, (Flt.fin (-1), Flt.fin 1))]
      (fun _ _ => ⟨[], []⟩) = .ok out) {cell : Flt ℝ × Flt ℝ × Flt ℝ}
    (hc : SummaryCell (coinTable ω) out "L".toList "B".toList cell) :
    ∃ mu e : ℝ, cell.1 = .fin mu ∧ cell.2.1 = .fin e ∧ |mu| ≤ 2 ∧ 1 / 2 ≤ e := by
  have hl := observed_length (fun (i : Fin 10) ω => -toss 10 i ω) ω
  have hne := observed_ne_nil (by norm_num) (fun (i : Fin 10) ω => -toss 10 i ω) ω
  have hw := observed_within coin_losses.boundX ω
  have hlD := observed_length (fun (i : Fin 10) ω => -toss 10 i ω - toss 10 i ω) ω
  have hneD := observed_ne_nil (by norm_num) (fun (i : Fin 10) ω => -toss 10 i ω - toss 10 i ω) ω
  have hwD := observed_within coin_losses.boundD ω
  obtain ⟨f1, -, f3⟩ := summaryCellR (by simp) h hc coin_losses.limits (coin_losses.meth ω) (coin_losses.ref ω) hne
  obtain ⟨m, f3⟩ := f3 rfl (by simp)
  rw [observed_sub] at f3
  simp only [Flt.sub_fin, Flt.neg_fin, rF] at f3
  obtain ⟨muR, e, eR, g1, g2, g4⟩ := pair_bernstein hneD hwD (rnd_sym_within doubleLib_good hwD) (by rw [hlD]; norm_num) (c := 19 / 20)
    (by norm_num) (by norm_num) doubleLib_good doubleLib_accurate studentT []
  have hlow := bernstein_bar_lower (by rw [hlD]; norm_num) (by norm_num) hwD (by norm_num) (by norm_num) g1
  rw [f3] at g2
  simp only [Except.ok.injEq, Prod.mk.injEq] at g2
  refine ⟨_, eR, f1, g2.2, ?_, ?_⟩
  · have hmean := C111_mean doubleLib_accurate.nonneg doubleLib_accurate.rnd doubleLib_good.sum hne (by rw [hl]; norm_num)
    have hs := C111_scale hne hw
    have ha := avg_mem hne (fun x hx => by simpa using hw x hx : Within (.fin (-1)) (.fin 1) _)
    simp only [Flt.fin_le_fin] at ha
    rw [hl] at hmean
    norm_num at hmean hs
    have := abs_le.1 hmean
    have h0 := avgAbs_nonneg (observed (fun (i : Fin 10) ω => -toss 10 i ω) ω)
    rw [abs_le]
    constructor <;> linarith [this.1, this.2, ha.1, ha.2]
  · have h3 := log_three_bound
    have h6 := log_sixty
    rw [hlD] at g4 hlow
    have hm : (1 : ℝ) ≤ min (3 * Real.log 3 * (1 - -1 - -(1 - -1)) / ((10 : ℕ) : ℝ)) ((1 - -1 - -(1 - -1)) / 2) := by
      refine le_min ?_ (by norm_num)
      norm_num
      linarith
    have := (abs_le.1 g4).1
    norm_num at this h6
    linarith

/-- The entries of the coin table are not too large in comparison with their error bars. -/
theorem coin_ratio (pw : Bool) {ω : Fin 10 → Bool} {out : List (List (Flt ℝ × Flt ℝ × Flt ℝ))}
    (h : lossSummaryTableR doubleLib (coinTable ω) "A".toList pw (.fin (19 / 20)) .bernstein [("L".toList, (Flt.fin (-1), Flt.fin 1))]
      (fun _ _ => ⟨[], []⟩) = .ok out) : ∀ metric method cell, SummaryCell (coinTable ω) out metric method cell →
      ∀ mu e : ℝ, cell.1 = .fin mu → cell.2.1 = .fin e → 0 < e → |mu| ≤ 10 ^ 26 * e := by
  intro metric method cell hc mu e hmu he _
  have hmet : metric = "L".toList := by
    obtain ⟨i, j, row, h1, -⟩ := hc
    simpa [coinTable] using List.mem_of_getElem? h1
  have hmeth : method = "A".toList ∨ method = "B".toList := by
    obtain ⟨i, j, row, -, h2, -⟩ := hc
    simpa [coinTable] using List.mem_of_getElem? h2
  subst hmet
  have fin : (∃ mu e : ℝ, cell.1 = .fin mu ∧ cell.2.1 = .fin e ∧ |mu| ≤ 2 ∧ 1 / 2 ≤ e) → |mu| ≤ 10 ^ 26 * e := by
    rintro ⟨mu', e', h1, h2, h3, h4⟩
    rw [hmu, Flt.fin.injEq] at h1
    rw [he, Flt.fin.injEq] at h2
    subst h1 h2
    linarith
  cases pw with
  | false =>
    rcases hmeth with rfl | rfl
    · exact fin (coin_bar h hc (coin_losses.ref ω) (observed_length _ ω) (observed_within coin_losses.boundY ω))
    · exact fin (coin_bar h hc (coin_losses.meth ω) (observed_length _ ω) (observed_within coin_losses.boundX ω))
  | true =>
    rcases hmeth with rfl | rfl
    · rw [reference_bar h hc] at he
      cases he
    · exact fin (coin_bar_pairwise h hc)

/-- C137: the coin table is printed, whatever the tosses, and the text shows method `B` with an error bar of which C136 tells what it means. -/
theorem coin_printed (pw : Bool) (ω : Fin 10 → Bool) {a b : Flt ℝ × Flt ℝ × Flt ℝ}
    (h : lossSummaryTableR doubleLib (coinTable ω) "A".toList pw (.fin (19 / 20)) .bernstein [("L".toList, (Flt.fin (-1), Flt.fin 1))]
      (fun _ _ => ⟨[], []⟩) = .ok [[a, b]]) :
    ∃ s v places E, Shows (coinTable ω) [[a, b]] "L".toList "B".toList s (v, places, some E) ∧ 0 < E := by
  have hc : SummaryCell (coinTable ω) [[a, b]] "L".toList "B".toList b := ⟨0, 1, _, rfl, rfl, rfl, rfl⟩
  have hb : ∃ mu e : ℝ, b.1 = .fin mu ∧ b.2.1 = .fin e ∧ |mu| ≤ 2 ∧ 1 / 2 ≤ e := by
    cases pw with
    | false => exact coin_bar h hc (coin_losses.meth ω) (observed_length _ ω) (observed_within coin_losses.boundX ω)
    | true => exact coin_bar_pairwise h hc
  obtain ⟨mu, e, h1, h2, -, h4⟩ := hb
  obtain ⟨t, ht, hp⟩ := C137_prints binary64_floatRounding.toMonoRounding binary64_dyadic h (fun metric hm method hme => by
    simp only [coinTable, List.mem_cons, List.not_mem_nil, or_false] at hm hme
    subst hm
    rcases hme with rfl | rfl
    · exact ⟨_, observed_ne_nil (by norm_num) _ ω, coin_losses.ref ω⟩
    · exact ⟨_, observed_ne_nil (by norm_num) _ ω, coin_losses.meth ω⟩) (coin_ratio pw h)
  obtain ⟨st, text, hst, -⟩ := hp _ sortsByAbs_insertionSort (fun _ => none) { shiftMod := some 3 } 3 rfl (by norm_num) (fun _ => none) true true
  obtain ⟨s, v, places, ev, hpr, hE⟩ := C136_shown ht hst hc h1 (by simp) (by simp)
  obtain ⟨E, rfl⟩ := hE e h2 (by simp)
  refine ⟨s, v, places, E, ⟨_, _, _, _, _, _, t, st, ht, hst, hpr⟩, ?_⟩
  obtain ⟨-, -, k3, -, k5⟩ := C136_cell ht hst hc h1 h2 hpr
  rcases (k5 E rfl).lt_or_eq with hlt | heq
  · exact hlt
  · have := k3 (by rw [heq])
    linarith

/-- C136 on the coin table in double precision, without `pairwise_CI`: the printed error bar, read by a person. -/
example : ∃ a b : (Fin 10 → Bool) → Flt ℝ × Flt ℝ × Flt ℝ,
    (∀ ω, lossSummaryTableR doubleLib (coinTable ω) "A".toList false (.fin (19 / 20)) .bernstein [("L".toList, (Flt.fin (-1), Flt.fin 1))]
      (fun _ _ => ⟨[], []⟩) = .ok [[a ω, b ω]]) ∧
    (∀ ω, ∃ s v places E, Shows (coinTable ω) [[a ω, b ω]] "L".toList "B".toList s (v, places, some E) ∧ 0 < E) ∧
    Likely (Measure.pi fun _ : Fin 10 => fairCoin) (19 / 20) {ω | ∀ (s : Int) (v : ℚ) (places : Nat) (E : ℚ),
      Shows (coinTable ω) [[a ω, b ω]] "L".toList "B".toList s (v, places, some E) → 0 < E →
      |(v : ℝ) / 10 ^ s - 0| ≤ (E + 10 ^ (-(places : Int)) / 2) / 10 ^ s +
        132 * (((10 : ℕ) : ℝ) * (1 / 2 ^ 53)) * (Real.log (3 / (1 - 19 / 20)) * max |-1| |1|)} := by
  obtain ⟨a, b, hab⟩ := coinTable_double_cells false
  exact ⟨a, b, hab, fun ω => coin_printed false ω (hab ω),
    C136_error_bar doubleLib_good doubleLib_accurate coin_losses (by norm_num) (by norm_num) (by norm_num) hab
      fun ω => ⟨0, 1, _, rfl, rfl, rfl, rfl⟩⟩

/-- C136 on the coin table in double precision, with `pairwise_CI`. -/
example : ∃ a b : (Fin 10 → Bool) → Flt ℝ × Flt ℝ × Flt ℝ,
    (∀ ω, lossSummaryTableR doubleLib (coinTable ω) "A".toList true (.fin (19 / 20)) .bernstein [("L".toList, (Flt.fin (-1), Flt.fin 1))]
      (fun _ _ => ⟨[], []⟩) = .ok [[a ω, b ω]]) ∧
    (∀ ω, ∃ s v places E, Shows (coinTable ω) [[a ω, b ω]] "L".toList "B".toList s (v, places, some E) ∧ 0 < E) ∧
    Likely (Measure.pi fun _ : Fin 10 => fairCoin) (19 / 20) {ω | ∀ (s s' : Int) (v v' : ℚ) (places places' : Nat) (E : ℚ) (ev' : Option ℚ),
      Shows (coinTable ω) [[a ω, b ω]] "L".toList "B".toList s (v, places, some E) → 0 < E →
      Shows (coinTable ω) [[a ω, b ω]] "L".toList "A".toList s' (v', places', ev') →
      ev' = none ∧ |((v : ℝ) / 10 ^ s - v' / 10 ^ s') - (0 - 0)| ≤ (E + 10 ^ (-(places : Int)) / 2) / 10 ^ s + |(v' : ℝ) / 10 ^ s'| / 20000 +
        (4 * (((10 : ℕ) : ℝ) * (1 / 2 ^ 53)) * max |-1| |1| +
          138 * (((10 : ℕ) : ℝ) * (1 / 2 ^ 53)) * (Real.log (3 / (1 - 19 / 20)) * (1 - -1)))} := by
  obtain ⟨a, b, hab⟩ := coinTable_double_cells true
  exact ⟨a, b, hab, fun ω => coin_printed true ω (hab ω),
    C136_pairwise doubleLib_good doubleLib_accurate coin_losses (by simp) (by norm_num) (by norm_num) (by norm_num) hab
      (fun ω => ⟨0, 1, _, rfl, rfl, rfl, rfl⟩) fun ω => ⟨0, 0, _, rfl, rfl, rfl, rfl⟩⟩

/-- C137: the reference of the coin table, with and without an error bar, and the entries of method `B`. -/
example (pw : Bool) (ω : Fin 10 → Bool) {out : List (List (Flt ℝ × Flt ℝ × Flt ℝ))} {cell : Flt ℝ × Flt ℝ × Flt ℝ}
    (h : lossSummaryTableR doubleLib (coinTable ω) "A".toList pw (.fin (19 / 20)) .bernstein [("L".toList, (Flt.fin (-1), Flt.fin 1))]
      (fun _ _ => ⟨[], []⟩) = .ok out) (hc : SummaryCell (coinTable ω) out "L".toList "B".toList cell) :
    IsRounded binary64 cell.2.1 ∧ (cell.2.2 = .nan ∨ ∃ p : ℝ, cell.2.2 = .fin p ∧ 0 ≤ p ∧ p ≤ 1) ∧ ∃ t, SameTable t (coinTable ω) out :=
  ⟨(C137_rounded binary64_floatRounding.toMonoRounding h hc).2.1, (C137_valid binary64_floatRounding.toMonoRounding h hc).2,
    C137_same_table binary64_floatRounding.toMonoRounding binary64_dyadic h⟩

/-- C136 for the floats nearest to normal numbers and the default limits. -/
example : ∃ a b : (Fin 10 → ℝ) → Flt ℝ × Flt ℝ × Flt ℝ,
    (∀ ω, lossSummaryTableR doubleLib (roundedNormalTable ω) "A".toList false (.fin (19 / 20)) .t [] (fun _ _ => ⟨[], []⟩) = .ok [[a ω, b ω]]) ∧
    Likely (Measure.pi fun _ : Fin 10 => gaussianReal 0 1) (19 / 20) {ω | ∀ (s : Int) (v : ℚ) (places : Nat) (E : ℚ),
      Shows (roundedNormalTable ω) [[a ω, b ω]] "L".toList "B".toList s (v, places, some E) → 0 < E →
      |(v : ℝ) / 10 ^ s - 0| ≤ (E + 10 ^ (-(places : Int)) / 2) / 10 ^ s +
        (3 * (((10 : ℕ) : ℝ) * (1 / 2 ^ 53)) * avgAbs (observed (fun i (ω : Fin 10 → ℝ) => ω i) ω) +
        (studentT 9).ppf ((1 + 19 / 20) / 2) * (((10 : ℕ) : ℝ) * (1 / 2 ^ 53)) * (15 * stdErr (observed (fun i (ω : Fin 10 → ℝ) => ω i) ω) +
          7 * (avgAbs (observed (fun i (ω : Fin 10 → ℝ) => ω i) ω) / Real.sqrt ((10 : ℕ) : ℝ))))} := by
  choose a b hab using roundedNormal_success
  exact ⟨a, b, hab, C136_t doubleLib_good doubleLib_accurate (by norm_num) roundedNormal_limits roundedNormal_meth roundedNormal_ref (gauss_sample 10)
    (by norm_num) (by norm_num) (by norm_num) rfl (doubleLib_quantile (by norm_num) (by norm_num) (by norm_num)) hab
    fun ω => ⟨0, 1, _, rfl, rfl, rfl, rfl⟩⟩

/-- C136 on the coin table with `pairwise_CI`: the reference is shown without error bar and with five significant digits. -/
example (ω : Fin 10 → Bool) {a b : Flt ℝ × Flt ℝ × Flt ℝ}
    (h : lossSummaryTableR doubleLib (coinTable ω) "A".toList true (.fin (19 / 20)) .bernstein [("L".toList, (Flt.fin (-1), Flt.fin 1))]
      (fun _ _ => ⟨[], []⟩) = .ok [[a, b]]) {s : Int} {v : ℚ} {places : Nat} {ev : Option ℚ}
    (hs : Shows (coinTable ω) [[a, b]] "L".toList "A".toList s (v, places, ev)) :
    ∃ mu : ℝ, a.1 = .fin mu ∧ ev = none ∧ |v / 10 ^ s - mu| ≤ |(v : ℝ) / 10 ^ s| / 20000 := by
  have hc : SummaryCell (coinTable ω) [[a, b]] "L".toList "A".toList a := ⟨0, 0, _, rfl, rfl, rfl, rfl⟩
  obtain ⟨f1, -, -⟩ := summaryCellR (by simp) h hc coin_losses.limits (coin_losses.ref ω) (coin_losses.ref ω) (observed_ne_nil (by norm_num) _ ω)
  obtain ⟨_, _, _, _, _, _, t, st, ht, hst, hp⟩ := hs
  exact ⟨_, f1, C136_cell_nan ht hst hc f1 (reference_bar h hc) hp⟩

end Mlp.Props
