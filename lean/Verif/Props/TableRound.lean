import Verif.Props.TableGradual

/-!
# Properties C108 to C110: `loss_summary_table` in floating point arithmetic

Rounding with a purely relative error, a special case of the theorems C128 of `Verif/Props/TableGradual.lean`.
-/

set_option linter.unusedSectionVars false

namespace Mlp.Props
open Mlp.Paper Mlp.PaperR Mlp.PerfR Mlp.BootR Mlp.Boot Mlp.Spec Mlp.Lemmas Mlp.Round

variable {L : Lib ℝ} (hL : GoodLib L) {u : ℝ} (hu : 0 ≤ u) (he : RelError u L.rnd) {m : Nat}
  (hm : HalvesExact L.rnd m) (hm1 : 1000 ≤ m)
include hL hu he hm hm1

omit hL hu he hm hm1 in
theorem gap_trivial {lower upper : Flt ℝ} (n : Nat) (hv : ValidLimits lower upper) :
    ∀ l h, lower = .fin l → upper = .fin h → l = h ∨ 4 * n * (0 : ℝ) < h - l := by
  rintro l h rfl rfl
  rw [mul_zero, sub_pos]
  exact (Flt.fin_le_fin.1 hv.2.2.1).eq_or_lt

/-- **C108, mean and error bar.**  For finite data within the limits `get_mean_and_EB` succeeds in floating point
arithmetic with every method: it returns the computed mean clipped to the limits and an error bar between the
minimum and the largest possible one. -/
theorem C108_mean_and_EB {xs : List ℝ} (hne : xs ≠ []) (hn : xs.length * u ≤ 1 / 1000000) {lower upper : Flt ℝ}
    (hv : ValidLimits lower upper) (hw : Within lower upper xs) {c : ℝ} (h0 : 0 < c) (h1 : c < 1)
    (method : EBMethod) (hme : method ≠ .other) (counts : List (List Nat))
    (hd : method = .boot → ValidDraws xs.length 1000 counts)
    {b : ℝ} (hb : 0 ≤ b) (hbr : L.rnd b = b) (h3 : .fin (2 * b) ≤ rF L.rnd (upper.sub lower)) :
    ∃ mu e : Flt ℝ, getMeanEBR L (finVec xs) (.fin c) (.fin b) lower upper method counts = .ok (mu, e) ∧
      mu = (Flt.fin (meanR L xs)).clip lower upper ∧ lower ≤ mu ∧ mu ≤ upper ∧ e ≠ .nan ∧ .fin b ≤ e ∧
      e ≤ Flt.fmax (rF L.rnd (upper.sub mu)) (rF L.rnd (mu.sub lower)) :=
  C128_mean_and_EB hL.toSignLib (gradual_of_relError hL.rnd hL.double hu he) hm hm1 hne hn (fun _ _ => trivial) (fun _ _ => trivial) (fun _ _ => trivial) hv hw h0 (by linarith)
    method hme counts hd hb hbr h3

/-- **C108, tests.**  For finite data within the limits every test succeeds and returns a p-value between 0 and 1. -/
theorem C108_test {xs : List ℝ} (hn : xs.length * u ≤ 1 / 1000000) {lower upper : Flt ℝ}
    (hv : ValidLimits lower upper) (hw : Within lower upper xs)
    (method : EBMethod) (hme : method ≠ .other) (counts : List (List Nat))
    (hd : method = .boot → ValidDraws xs.length 1000 counts) :
    ∃ p : ℝ, getTestR L (finVec xs) lower upper method counts = .ok (.fin p) ∧ 0 ≤ p ∧ p ≤ 1 :=
  C128_test hL.toSignLib (gradual_of_relError hL.rnd hL.double hu he) hm hm1 hn hv hw (gap_trivial xs.length hv) method hme counts hd

/-- **C108, all at once.**  For finite data within the limits `get_mean_EB_test` succeeds and returns, to the last bit,
what `get_mean_and_EB` and `get_test` return for the same draws. -/
theorem C108_combined {xs : List ℝ} (hne : xs ≠ []) (hn : xs.length * u ≤ 1 / 1000000) {lower upper : Flt ℝ}
    (hv : ValidLimits lower upper) (hw : Within lower upper xs) {c : ℝ} (h0 : 0 < c) (h1 : c < 1)
    (method : EBMethod) (hme : method ≠ .other) (counts : List (List Nat))
    (hd : method = .boot → ValidDraws xs.length 1000 counts)
    {b : ℝ} (hb : 0 ≤ b) (hbr : L.rnd b = b) (h3 : .fin (2 * b) ≤ rF L.rnd (upper.sub lower)) :
    ∃ (mu e : Flt ℝ) (p : ℝ), getMeanEBTestR L (finVec xs) (.fin c) (.fin b) lower upper method counts =
        .ok (mu, e, .fin p) ∧
      getMeanEBR L (finVec xs) (.fin c) (.fin b) lower upper method counts = .ok (mu, e) ∧
      getTestR L (finVec xs) lower upper method counts = .ok (.fin p) :=
  C128_combined hL.toSignLib (gradual_of_relError hL.rnd hL.double hu he) hm hm1 hne hn (fun _ _ => trivial) (fun _ _ => trivial) (fun _ _ => trivial) (gap_trivial xs.length hv)
    hv hw h0 (by linarith) method hme counts hd hb hbr h3

/-- **C108, cells.**  With `pairwise_CI` the cell of a method in comparison with the reference is always computed:
the mean is `np.mean` of its losses, the error bar is a number or infinite, at least 0 and at most the largest possible error of the
difference, the p-value lies between 0 and 1.  The cell of the reference has the mean only. -/
theorem C108_cell {xs rs : List ℝ} (hne : xs ≠ []) (hlen : rs.length = xs.length) (hn : xs.length * u ≤ 1 / 1000000)
    {lower upper : Flt ℝ} (hv : ValidLimits lower upper) (hx : Within lower upper xs) (hr : Within lower upper rs)
    {c : ℝ} (h0 : 0 < c) (h1 : c < 1) (method : EBMethod) (hme : method ≠ .other) (draws : Draws)
    (hd : method = .boot → ValidDraws xs.length 1000 draws.eb) :
    cellOfR L (finVec xs) (finVec rs) true true (.fin c) method lower upper draws =
      .ok (.fin (meanR L xs), .nan, .nan) ∧
    ∃ (e : Flt ℝ) (p : ℝ), cellOfR L (finVec xs) (finVec rs) false true (.fin c) method lower upper draws =
        .ok (.fin (meanR L xs), e, .fin p) ∧ e ≠ .nan ∧ .fin 0 ≤ e ∧
      (∀ l h : ℝ, lower = .fin l → upper = .fin h → e ≤ .fin (2 * L.rnd (h - l))) ∧ 0 ≤ p ∧ p ≤ 1 :=
  C128_cell hL.toSignLib (gradual_of_relError hL.rnd hL.double hu he) hm hm1 hne hlen hn (safeLimits_trivial hv _) hv hx hr h0 (by linarith) method hme draws hd

/-- **C108, the table.**  With `pairwise_CI`, finite losses within valid limits, at least one row, a known method and a confidence
in (0,1) `loss_summary_table` produces the table in floating point arithmetic too, for every outcome of the bootstrap
draws.  Every cell has the computed mean of its losses; the reference has no error bar and no p-value; for the others the error bar
is not NaN and not negative and the p-value lies between 0 and 1. -/
theorem C108_table {tbl : LossTable} {refMethod : Str}
    {c : ℝ} (h0 : 0 < c) (h1 : c < 1) {methodEB : EBMethod} (hme : methodEB ≠ .other)
    {limits : List (Str × (Flt ℝ × Flt ℝ))} {draws : Str → Str → Draws}
    (hd : methodEB = .boot → ∀ metric method, ValidDraws tbl.nrows 1000 (draws metric method).eb)
    (href : refMethod ∈ tbl.methods) (hrows : 1 ≤ tbl.nrows) (hn : tbl.nrows * u ≤ 1 / 1000000) (hmetrics : tbl.metrics ≠ [])
    (hfin : ∀ metric ∈ tbl.metrics, ∃ lower upper, LimitsOf limits metric lower upper ∧
      ValidLimits lower upper ∧ ∀ method ∈ tbl.methods, ∃ xs : List ℝ,
        HasLoss tbl metric method (finVec xs) ∧ xs.length = tbl.nrows ∧ Within lower upper xs) :
    ∃ out, lossSummaryTableR L tbl refMethod true (.fin c) methodEB limits draws = .ok out ∧
      List.Forall₂ (fun metric row => List.Forall₂ (fun method cell =>
        (∃ xs : List ℝ, HasLoss tbl metric method (finVec xs) ∧ cell.1 = .fin (meanR L xs)) ∧
        (method = refMethod → cell.2 = (.nan, .nan)) ∧
        (method ≠ refMethod → cell.2.1 ≠ .nan ∧ .fin 0 ≤ cell.2.1 ∧ ∃ p : ℝ, cell.2.2 = .fin p ∧ 0 ≤ p ∧ p ≤ 1))
        tbl.methods row) tbl.metrics out :=
  C128_table hL.toSignLib (gradual_of_relError hL.rnd hL.double hu he) hm hm1 h0 (by linarith) hme hd href hrows hn hmetrics fun metric hmet => by
    obtain ⟨lower, upper, a, b, d⟩ := hfin metric hmet
    exact ⟨lower, upper, a, b, safeLimits_trivial b _, d⟩

/-- **C109, cells.**  Without `pairwise_CI` the cell is computed exactly if the computed mean of the losses lies within the limits;
otherwise clipping has moved it and the comparison `mu_ == mu` raises an AssertionError, although every loss is within the limits. -/
theorem C109_cell {xs rs : List ℝ} (hne : xs ≠ []) (hlen : rs.length = xs.length) (hn : xs.length * u ≤ 1 / 1000000)
    {lower upper : Flt ℝ} (hv : ValidLimits lower upper) (hx : Within lower upper xs) (hr : Within lower upper rs)
    {c : ℝ} (h0 : 0 < c) (h1 : c < 1) (method : EBMethod) (hme : method ≠ .other) (draws : Draws)
    (hd : method = .boot → ValidDraws xs.length 1000 draws.eb ∧ ValidDraws xs.length 1000 draws.test)
    (self : Bool) :
    (lower ≤ .fin (meanR L xs) ∧ .fin (meanR L xs) ≤ upper →
      ∃ e p : Flt ℝ, cellOfR L (finVec xs) (finVec rs) self false (.fin c) method lower upper draws =
        .ok (.fin (meanR L xs), e, p) ∧ e ≠ .nan ∧ .fin 0 ≤ e ∧
        (self = true → p = .nan) ∧ (self = false → ∃ q : ℝ, p = .fin q ∧ 0 ≤ q ∧ q ≤ 1)) ∧
    (¬ (lower ≤ .fin (meanR L xs) ∧ .fin (meanR L xs) ≤ upper) →
      cellOfR L (finVec xs) (finVec rs) self false (.fin c) method lower upper draws = .error .assertion) :=
  C128_cell_unpaired hL.toSignLib (gradual_of_relError hL.rnd hL.double hu he) hm hm1 hne hlen hn (fun _ _ => trivial) (safeLimits_trivial hv _) hv
    hx hr h0 (by linarith) method hme draws hd self

/-- **C109, the table.**  Without `pairwise_CI`, with finite losses within valid limits, at least one row, a known method and a
confidence in (0,1): if the computed mean of every column lies within the limits of its metric, the table is produced; if the computed mean of one
column does not, the call ends in an AssertionError. -/
theorem C109_table {tbl : LossTable} {refMethod : Str}
    {c : ℝ} (h0 : 0 < c) (h1 : c < 1) {methodEB : EBMethod} (hme : methodEB ≠ .other)
    {limits : List (Str × (Flt ℝ × Flt ℝ))} {draws : Str → Str → Draws}
    (hd : methodEB = .boot → ∀ metric method, ValidDraws tbl.nrows 1000 (draws metric method).eb ∧
      ValidDraws tbl.nrows 1000 (draws metric method).test)
    (href : refMethod ∈ tbl.methods) (hrows : 1 ≤ tbl.nrows) (hn : tbl.nrows * u ≤ 1 / 1000000) (hmetrics : tbl.metrics ≠ [])
    (hfin : ∀ metric ∈ tbl.metrics, ∃ lower upper, LimitsOf limits metric lower upper ∧
      ValidLimits lower upper ∧ ∀ method ∈ tbl.methods, ∃ xs : List ℝ,
        HasLoss tbl metric method (finVec xs) ∧ xs.length = tbl.nrows ∧ Within lower upper xs) :
    ((∀ metric ∈ tbl.metrics, ∀ method ∈ tbl.methods, ∀ lower upper, ∀ xs : List ℝ, LimitsOf limits metric lower upper →
        HasLoss tbl metric method (finVec xs) → lower ≤ .fin (meanR L xs) ∧ .fin (meanR L xs) ≤ upper) →
      ∃ out, lossSummaryTableR L tbl refMethod false (.fin c) methodEB limits draws = .ok out ∧
      List.Forall₂ (fun metric row => List.Forall₂ (fun method cell =>
        (∃ xs : List ℝ, HasLoss tbl metric method (finVec xs) ∧ cell.1 = .fin (meanR L xs)) ∧
        cell.2.1 ≠ .nan ∧ .fin 0 ≤ cell.2.1 ∧
        (method = refMethod → cell.2.2 = .nan) ∧
        (method ≠ refMethod → ∃ p : ℝ, cell.2.2 = .fin p ∧ 0 ≤ p ∧ p ≤ 1))
        tbl.methods row) tbl.metrics out) ∧
    (∀ metric ∈ tbl.metrics, ∀ method ∈ tbl.methods, ∀ lower upper, ∀ xs : List ℝ, LimitsOf limits metric lower upper →
        HasLoss tbl metric method (finVec xs) → ¬ (lower ≤ .fin (meanR L xs) ∧ .fin (meanR L xs) ≤ upper) →
      lossSummaryTableR L tbl refMethod false (.fin c) methodEB limits draws = .error .assertion) :=
  C128_table_unpaired hL.toSignLib (gradual_of_relError hL.rnd hL.double hu he) hm hm1 h0 (by linarith) hme hd href hrows hn hmetrics fun metric hmet => by
    obtain ⟨lower, upper, a, b, d⟩ := hfin metric hmet
    refine ⟨lower, upper, a, b, safeLimits_trivial b _, fun method hmeth => ?_⟩
    obtain ⟨xs, x1, x2, x3⟩ := d method hmeth
    exact ⟨xs, x1, x2, x3, fun _ _ => trivial⟩

omit he hu hm hm1 in
/-- **C109, limits on a grid.**  If the losses are at most `h` and `h`, `2h`, ..., `n·h` are floats, the computed mean is at most `h`. -/
theorem C109_at_most {xs : List ℝ} (hne : xs ≠ []) {h : ℝ} (hk : ∀ k : Nat, k ≤ xs.length → L.rnd (k * h) = k * h)
    (hx : ∀ x ∈ xs, x ≤ h) : meanR L xs ≤ h := by
  obtain ⟨t, hp, e⟩ := hL.sum.2 xs hne
  have hl : (0 : ℝ) < xs.length := by exact_mod_cast List.length_pos_iff.2 hne
  have := tree_le hL.rnd.toMonoRounding t (M := h) (by rw [hp.length_eq]; exact hk) (fun v hv => hx v (hp.mem_iff.1 hv))
  rw [hp.length_eq, ← e] at this
  have h1 : L.rnd h = h := by simpa using hk 1 (List.length_pos_iff.2 hne)
  unfold meanR
  rw [← h1]
  refine hL.rnd.mono ?_
  rw [div_le_iff₀ hl, mul_comm]
  exact this

omit he hu hm hm1 in
/-- **C109, limits on a grid.**  If the losses are at least `l` and `l`, `2l`, ..., `n·l` are floats, the computed mean is at least `l`. -/
theorem C109_at_least {xs : List ℝ} (hne : xs ≠ []) {l : ℝ} (hk : ∀ k : Nat, k ≤ xs.length → L.rnd (k * l) = k * l)
    (hx : ∀ x ∈ xs, l ≤ x) : l ≤ meanR L xs := by
  obtain ⟨t, hp, e⟩ := hL.sum.2 xs hne
  have hl : (0 : ℝ) < xs.length := by exact_mod_cast List.length_pos_iff.2 hne
  have := tree_ge hL.rnd.toMonoRounding t (M := l) (by rw [hp.length_eq]; exact hk) (fun v hv => hx v (hp.mem_iff.1 hv))
  rw [hp.length_eq, ← e] at this
  have h1 : L.rnd l = l := by simpa using hk 1 (List.length_pos_iff.2 hne)
  unfold meanR
  rw [← h1]
  refine hL.rnd.mono ?_
  rw [le_div_iff₀ hl, mul_comm]
  exact this

/-- **C109, limits on a grid.**  Without `pairwise_CI`, with finite losses within valid limits that are infinite or on a grid, the
table is produced for every outcome of the bootstrap draws. -/
theorem C109_table_grid {tbl : LossTable} {refMethod : Str}
    {c : ℝ} (h0 : 0 < c) (h1 : c < 1) {methodEB : EBMethod} (hme : methodEB ≠ .other)
    {limits : List (Str × (Flt ℝ × Flt ℝ))} {draws : Str → Str → Draws}
    (hd : methodEB = .boot → ∀ metric method, ValidDraws tbl.nrows 1000 (draws metric method).eb ∧
      ValidDraws tbl.nrows 1000 (draws metric method).test)
    (href : refMethod ∈ tbl.methods) (hrows : 1 ≤ tbl.nrows) (hn : tbl.nrows * u ≤ 1 / 1000000) (hmetrics : tbl.metrics ≠ [])
    (hfin : ∀ metric ∈ tbl.metrics, ∃ lower upper, LimitsOf limits metric lower upper ∧
      ValidLimits lower upper ∧ GridLimit L.rnd tbl.nrows lower ∧ GridLimit L.rnd tbl.nrows upper ∧
      ∀ method ∈ tbl.methods, ∃ xs : List ℝ,
        HasLoss tbl metric method (finVec xs) ∧ xs.length = tbl.nrows ∧ Within lower upper xs) :
    ∃ out, lossSummaryTableR L tbl refMethod false (.fin c) methodEB limits draws = .ok out ∧
      List.Forall₂ (fun metric row => List.Forall₂ (fun method cell =>
        (∃ xs : List ℝ, HasLoss tbl metric method (finVec xs) ∧ cell.1 = .fin (meanR L xs)) ∧
        cell.2.1 ≠ .nan ∧ .fin 0 ≤ cell.2.1 ∧
        (method = refMethod → cell.2.2 = .nan) ∧
        (method ≠ refMethod → ∃ p : ℝ, cell.2.2 = .fin p ∧ 0 ≤ p ∧ p ≤ 1))
        tbl.methods row) tbl.metrics out :=
  C128_table_grid hL.toSignLib (gradual_of_relError hL.rnd hL.double hu he) hm hm1 h0 (by linarith) hme hd href hrows hn hmetrics fun metric hmet => by
    obtain ⟨lower, upper, a, b, g1, g2, d⟩ := hfin metric hmet
    refine ⟨lower, upper, a, b, safeLimits_trivial b _, g1, g2, fun method hmeth => ?_⟩
    obtain ⟨xs, x1, x2, x3⟩ := d method hmeth
    exact ⟨xs, x1, x2, x3, fun _ _ => trivial⟩

/-! ## Accuracy of the means -/

omit hL hm hm1 in
/-- **C111, means.**  The computed mean of `n` numbers differs from their average by at most `2 n u` times the average of their
absolute values, whatever the order in which `np.sum` adds. -/
theorem C111_mean (hs : AddsAlongTrees L.rnd L.sum) {xs : List ℝ} (hne : xs ≠ []) (hn : xs.length * u ≤ 1 / 1000000) :
    |meanR L xs - avg xs| ≤ 2 * (xs.length * u) * avgAbs xs := by
  refine (meanR_error hs hu he hne).trans (mul_le_mul_of_nonneg_right ?_ (avgAbs_nonneg xs))
  have := pow_one_add_le hu (n := xs.length) (by linarith)
  linarith

omit hL hm hm1 in
/-- **C111, the mean column.**  Whenever `loss_summary_table` returns a table, with or without `pairwise_CI`, the mean in each cell
with finite losses is that accurate. -/
theorem C111_table (hs : AddsAlongTrees L.rnd L.sum) {tbl : LossTable} {refMethod : Str} {pairwise : Bool}
    {confidence : Flt ℝ} {methodEB : EBMethod} {limits : List (Str × (Flt ℝ × Flt ℝ))}
    {draws : Str → Str → Draws} {out : List (List (Flt ℝ × Flt ℝ × Flt ℝ))}
    (h : lossSummaryTableR L tbl refMethod pairwise confidence methodEB limits draws = .ok out) :
    List.Forall₂ (fun metric row => List.Forall₂ (fun method cell =>
      ∀ xs : List ℝ, HasLoss tbl metric method (finVec xs) → xs ≠ [] → xs.length * u ≤ 1 / 1000000 →
        ∃ m, cell.1 = .fin m ∧ |m - avg xs| ≤ 2 * (xs.length * u) * avgAbs xs) tbl.methods row) tbl.metrics out := by
  obtain ⟨-, -, -, h⟩ := summaryR_ok.1 h
  refine h.imp ?_
  rintro metric row ⟨lo, hi, lr, -, -, -, -, -, h⟩
  refine h.imp ?_
  rintro method cell ⟨loss, hl, hc⟩ xs hx hne hn
  have e : loss = finVec xs := by
    have h := (column_ok_iff _ _ _ _).2 hx
    rw [(column_ok_iff _ _ _ _).2 hl] at h
    simpa using h
  subst e
  refine ⟨meanR L xs, ?_, C111_mean hu he hs hne hn⟩
  unfold cellOfR at hc
  simp only [assert_bind_ok, meanFR_finVec hne] at hc
  obtain ⟨-, -, hc⟩ := hc
  split_ifs at hc
  · cases hc; rfl
  · obtain ⟨r, -, hc⟩ := (bind_ok_iff _ _ _).1 hc
    cases hc; rfl
  · obtain ⟨r, -, hc⟩ := (bind_ok_iff _ _ _).1 hc
    rw [assert_bind_ok] at hc
    obtain ⟨-, hc⟩ := hc
    obtain ⟨q, -, hc⟩ := (bind_ok_iff _ _ _).1 hc
    cases hc; rfl
  · obtain ⟨r, -, hc⟩ := (bind_ok_iff _ _ _).1 hc
    rw [assert_bind_ok] at hc
    obtain ⟨-, hc⟩ := hc
    obtain ⟨q, -, hc⟩ := (bind_ok_iff _ _ _).1 hc
    cases hc; rfl

omit hL hu he hm hm1 in
/-- **C111, bounded losses.**  If all losses lie between `l` and `h`, the average of their absolute values is at most
`max |l| |h|`, so the error of the mean is at most `2 n u` times that. -/
theorem C111_scale {xs : List ℝ} (hne : xs ≠ []) {l h : ℝ} (hx : ∀ x ∈ xs, l ≤ x ∧ x ≤ h) : avgAbs xs ≤ max |l| |h| := by
  refine avg_le_of hne fun x hx' => ?_
  obtain ⟨h1, h2⟩ := hx x hx'
  rw [abs_le]
  have a1 := neg_abs_le l
  have a2 := le_abs_self h
  constructor
  · have := le_max_left |l| |h|; linarith
  · have := le_max_right |l| |h|; linarith

end Mlp.Props
