import Verif.Props.LargeSample

/-! # C131: the default loss table for many rows of any distribution -/

namespace Mlp.Props
open Mlp.Paper Mlp.Spec Mlp.Lemmas MeasureTheory ProbabilityTheory Set Filter
open scoped NNReal ENNReal Topology

variable {Ω : Type} [MeasurableSpace Ω] {P : Measure Ω} [IsProbabilityMeasure P]

/-- A table that grows: with `n` rows it contains for one metric the first `n` losses of a method and of the reference.  All
losses respect the limits of the metric, which may be infinite. -/
structure GrowingTable (tbl : ℕ → Ω → LossTable) (metric method refMethod : Str) (limits : List (Str × (Flt ℝ × Flt ℝ)))
    (lower upper : Flt ℝ) (X Y : ℕ → Ω → ℝ) : Prop where
  limits : LimitsOf limits metric lower upper
  valid : ValidLimits lower upper
  meth : ∀ n ω, HasLoss (tbl n ω) metric method (finVec (observedN X n ω))
  ref : ∀ n ω, HasLoss (tbl n ω) metric refMethod (finVec (observedN Y n ω))
  boundX : ∀ i ω, lower ≤ .fin (X i ω) ∧ .fin (X i ω) ≤ upper
  boundY : ∀ i ω, lower ≤ .fin (Y i ω) ∧ .fin (Y i ω) ≤ upper

theorem observedN_sub (X Y : ℕ → Ω → ℝ) (n : ℕ) (ω : Ω) :
    List.zipWith (· - ·) (observedN X n ω) (observedN Y n ω) = observedN (fun i ω => X i ω - Y i ω) n ω := by
  unfold observedN
  rw [observed_sub]

theorem observedN_ne_nil {n : ℕ} (hn : 1 ≤ n) (X : ℕ → Ω → ℝ) (ω : Ω) : observedN X n ω ≠ [] := observed_ne_nil hn _ ω

theorem diff_limits {lower upper : Flt ℝ} (hv : ValidLimits lower upper) :
    ValidLimits (upper.sub lower).neg (upper.sub lower) := by
  obtain ⟨h1, h2, h3, h4, h5⟩ := hv
  cases lower <;> cases upper <;> simp_all [ValidLimits, Flt.sub, Flt.add, Flt.neg]
  linarith

theorem diff_within {lower upper : Flt ℝ} {x y : ℝ} (hv : ValidLimits lower upper)
    (hx : lower ≤ .fin x ∧ .fin x ≤ upper) (hy : lower ≤ .fin y ∧ .fin y ≤ upper) :
    (upper.sub lower).neg ≤ .fin (x - y) ∧ .fin (x - y) ≤ upper.sub lower := by
  obtain ⟨h1, h2, h3, h4, h5⟩ := hv
  cases lower <;> cases upper <;> simp_all [Flt.sub, Flt.add, Flt.neg]
  constructor <;> linarith

section
variable {tbl : ℕ → Ω → LossTable} {metric method refMethod : Str} {limits : List (Str × (Flt ℝ × Flt ℝ))}
  {lower upper : Flt ℝ} {X Y : ℕ → Ω → ℝ}

omit [MeasurableSpace Ω] in
theorem GrowingTable.boundD (h : GrowingTable tbl metric method refMethod limits lower upper X Y) (i : ℕ) (ω : Ω) :
    (upper.sub lower).neg ≤ .fin (X i ω - Y i ω) ∧ .fin (X i ω - Y i ω) ≤ upper.sub lower :=
  diff_within h.valid (h.boundX i ω) (h.boundY i ω)

/-- What a cell of a growing table is. -/
theorem GrowingTable.cell (h : GrowingTable tbl metric method refMethod limits lower upper X Y) {T : Nat → RefDist}
    {pairwise : Bool} {c : Flt ℝ} {methodEB : EBMethod} {draws : Str → Str → Draws} {n : ℕ} (hn : 1 ≤ n) {ω : Ω}
    {out : List (List (Flt ℝ × Flt ℝ × Flt ℝ))}
    (ho : lossSummaryTable T (tbl n ω) refMethod pairwise c methodEB limits draws = .ok out)
    {cell : Flt ℝ × Flt ℝ × Flt ℝ} (hc : SummaryCell (tbl n ω) out metric method cell) :
    cell.1 = .fin (avg (observedN X n ω)) ∧
    (pairwise = true → method ≠ refMethod →
      ∃ m, getMeanEBTest T (finVec (observedN (fun i ω => X i ω - Y i ω) n ω)) c (.fin 0) (upper.sub lower).neg (upper.sub lower)
          methodEB (draws metric method).eb = .ok (m, cell.2.1, cell.2.2)) ∧
    (pairwise = false →
      getMeanEB T (finVec (observedN X n ω)) c (.fin 0) lower upper methodEB (draws metric method).eb =
        .ok (.fin (avg (observedN X n ω)), cell.2.1) ∧
      (method ≠ refMethod → getTest T (finVec (observedN (fun i ω => X i ω - Y i ω) n ω)) (upper.sub lower).neg
        (upper.sub lower) methodEB (draws metric method).test = .ok cell.2.2)) := by
  obtain ⟨loss, lossRef, lo, hi, h1, h2, h3, -, -, -, -, h8, -, h10, h11⟩ := summaryCell_isCell ho hc
  obtain rfl := hasLoss_unique (h.meth n ω) h1
  obtain rfl := hasLoss_unique (h.ref n ω) h2
  obtain ⟨rfl, rfl⟩ := limitsOf_unique h.limits h3
  rw [deltas_finVec, observedN_sub] at h10 h11
  rw [mean_finVec (observedN_ne_nil hn X ω)] at h8 h11
  exact ⟨h8, fun hp hm => h10 hp hm, fun hp => ⟨(h11 hp).1, (h11 hp).2.2⟩⟩

theorem GrowingTable.cell_ref (h : GrowingTable tbl metric method refMethod limits lower upper X Y) {T : Nat → RefDist}
    {pairwise : Bool} {c : Flt ℝ} {methodEB : EBMethod} {draws : Str → Str → Draws} {n : ℕ} (hn : 1 ≤ n) {ω : Ω}
    {out : List (List (Flt ℝ × Flt ℝ × Flt ℝ))}
    (ho : lossSummaryTable T (tbl n ω) refMethod pairwise c methodEB limits draws = .ok out)
    {cell : Flt ℝ × Flt ℝ × Flt ℝ} (hc : SummaryCell (tbl n ω) out metric refMethod cell) :
    cell.1 = .fin (avg (observedN Y n ω)) := by
  obtain ⟨loss, lossRef, lo, hi, h1, h2, h3, -, -, -, -, h8, -⟩ := summaryCell_isCell ho hc
  obtain rfl := hasLoss_unique (h.ref n ω) h1
  rw [h8]
  exact mean_finVec (observedN_ne_nil hn Y ω)

/-- **C131, error bars.**  Losses of a method that are independent between rows and have the same distribution of any kind
with finite variance: without `pairwise_CI` the probability that the mean and error bar of the default method `'t'` contain
the expected loss tends to the confidence as the number of rows grows. -/
theorem C131_error_bar (h : GrowingTable tbl metric method refMethod limits lower upper X Y) {m : ℝ} (hX : DataStream P X m)
    {c : ℝ} (h0 : 0 < c) (h1 : c < 1) {draws : ℕ → Ω → Str → Str → Draws}
    {out : ℕ → Ω → List (List (Flt ℝ × Flt ℝ × Flt ℝ))}
    (ho : ∀ n ω, 2 ≤ n → lossSummaryTable studentT (tbl n ω) refMethod false (.fin c) .t limits (draws n ω) = .ok (out n ω))
    {cell : ℕ → Ω → Flt ℝ × Flt ℝ × Flt ℝ}
    (hc : ∀ n ω, 2 ≤ n → SummaryCell (tbl n ω) (out n ω) metric method (cell n ω)) :
    ProbTendsto P (fun n => {ω | ∃ mu e : ℝ, (cell n ω).1 = .fin mu ∧ (cell n ω).2.1 = .fin e ∧ mu - e ≤ m ∧ m ≤ mu + e})
      c := by
  refine (C130_mean_and_EB hX h.valid h.boundX h0 h1 fun n ω => (draws n ω metric method).eb).congr ?_
  filter_upwards [eventually_ge_atTop 2] with n hn
  ext ω
  have hcell := h.cell (by omega) (ho n ω hn) (hc n ω hn)
  simp only [mem_ofPred_eq, (hcell.2.2 rfl).1, hcell.1, Except.ok.injEq, Prod.mk.injEq, and_assoc]

/-- **C131, pairwise error bars.**  With `pairwise_CI` the probability that the difference of the two means and the error bar
contain the expected difference tends to the confidence, if the differences to the reference are independent between rows and
have the same distribution with finite variance. -/
theorem C131_pairwise (h : GrowingTable tbl metric method refMethod limits lower upper X Y) (hne : method ≠ refMethod) {δ : ℝ}
    (hD : DataStream P (fun i ω => X i ω - Y i ω) δ) {c : ℝ} (h0 : 0 < c) (h1 : c < 1)
    {draws : ℕ → Ω → Str → Str → Draws} {out : ℕ → Ω → List (List (Flt ℝ × Flt ℝ × Flt ℝ))}
    (ho : ∀ n ω, 2 ≤ n → lossSummaryTable studentT (tbl n ω) refMethod true (.fin c) .t limits (draws n ω) = .ok (out n ω))
    {cell cellRef : ℕ → Ω → Flt ℝ × Flt ℝ × Flt ℝ}
    (hc : ∀ n ω, 2 ≤ n → SummaryCell (tbl n ω) (out n ω) metric method (cell n ω))
    (hr : ∀ n ω, 2 ≤ n → SummaryCell (tbl n ω) (out n ω) metric refMethod (cellRef n ω)) :
    ProbTendsto P (fun n => {ω | ∃ mu muRef e : ℝ, (cell n ω).1 = .fin mu ∧ (cellRef n ω).1 = .fin muRef ∧
      (cell n ω).2.1 = .fin e ∧ (mu - muRef) - e ≤ δ ∧ δ ≤ (mu - muRef) + e}) c := by
  refine (C130_mean_and_EB hD (diff_limits h.valid) h.boundD h0 h1 fun n ω => (draws n ω metric method).eb).congr ?_
  filter_upwards [eventually_ge_atTop 2] with n hn
  ext ω
  have hcell := h.cell (by omega) (ho n ω hn) (hc n ω hn)
  have hcellR := h.cell_ref (by omega) (ho n ω hn) (hr n ω hn)
  obtain ⟨mu, hmu⟩ := hcell.2.1 rfl hne
  have h2 := ((C49_agree studentT _ _ _ _ _ _ _ mu (cell n ω).2.1 (cell n ω).2.2).1 hmu).1
  obtain ⟨e0, e, -, he, -⟩ := getMeanEB_t_limits (xs := observedN (fun i ω => X i ω - Y i ω) n ω) (by rw [observedN_length]; omega)
    (diff_limits h.valid) (observedN_within h.boundD n ω) h0 h1 (draws n ω metric method).eb
  have h3 := h2
  rw [he] at h3
  injection h3 with h3
  injection h3 with h31 h32
  have havg : avg (observedN (fun i ω => X i ω - Y i ω) n ω) = avg (observedN X n ω) - avg (observedN Y n ω) := by
    rw [observedN_avg, observedN_avg, observedN_avg, Finset.sum_sub_distrib, sub_div]
  simp only [mem_ofPred_eq, he, hcell.1, hcellR, ← h32, havg]
  constructor
  · rintro ⟨mu', e', heq, hcov⟩
    cases heq
    exact ⟨_, _, _, rfl, rfl, rfl, hcov⟩
  · rintro ⟨_, _, _, h4, h5, h6, hcov⟩
    cases h4; cases h5; cases h6
    exact ⟨_, _, rfl, hcov⟩

/-- **C131, p-values.**  If the expected difference to the reference is 0, the probability that the p-value in the table is at
most `α` tends to `α`, with and without `pairwise_CI`. -/
theorem C131_p_value (h : GrowingTable tbl metric method refMethod limits lower upper X Y) (hne : method ≠ refMethod)
    (hD : DataStream P (fun i ω => X i ω - Y i ω) 0) (pairwise : Bool) (c : ℝ)
    {draws : ℕ → Ω → Str → Str → Draws} {out : ℕ → Ω → List (List (Flt ℝ × Flt ℝ × Flt ℝ))}
    (ho : ∀ n ω, 2 ≤ n → lossSummaryTable studentT (tbl n ω) refMethod pairwise (.fin c) .t limits (draws n ω) = .ok (out n ω))
    {cell : ℕ → Ω → Flt ℝ × Flt ℝ × Flt ℝ}
    (hc : ∀ n ω, 2 ≤ n → SummaryCell (tbl n ω) (out n ω) metric method (cell n ω)) {α : ℝ} (h0 : 0 ≤ α) (h1 : α ≤ 1) :
    ProbTendsto P (fun n => {ω | ∃ p : ℝ, (cell n ω).2.2 = .fin p ∧ p ≤ α}) α := by
  refine (C130_t_test hD h0 h1).congr ?_
  filter_upwards [eventually_ge_atTop 2] with n hn
  ext ω
  have hcell := h.cell (by omega) (ho n ω hn) (hc n ω hn)
  have ht : tTest studentT (finVec (observedN (fun i ω => X i ω - Y i ω) n ω)) = .ok (cell n ω).2.2 := by
    cases pairwise with
    | true =>
      obtain ⟨m, h3⟩ := hcell.2.1 rfl hne
      exact ((C49_agree studentT _ _ _ _ _ _ _ m (cell n ω).2.1 (cell n ω).2.2).1 h3).2
    | false => exact (hcell.2.2 rfl).2 hne
  simp only [mem_ofPred_eq, ht, Except.ok.injEq]

end

/-! ### A concrete case: guessing coins -/

/-- A table of one metric whose losses are the first `n` terms of two sequences. -/
noncomputable def pairTable (X Y : ℕ → Ω → ℝ) (n : ℕ) (ω : Ω) : LossTable :=
  ⟨["L".toList], ["A".toList, "B".toList], n,
    [(("L".toList, "A".toList), finVec (observedN Y n ω)), (("L".toList, "B".toList), finVec (observedN X n ω))]⟩

omit [MeasurableSpace Ω] in
theorem pairTable_growing {X Y : ℕ → Ω → ℝ} {l u : ℝ} (hX : ∀ i ω, l ≤ X i ω ∧ X i ω ≤ u) (hY : ∀ i ω, l ≤ Y i ω ∧ Y i ω ≤ u)
    (hlu : l < u) : GrowingTable (pairTable X Y) "L".toList "B".toList "A".toList [("L".toList, (.fin l, .fin u))]
      (.fin l) (.fin u) X Y where
  limits := .given [] [] _ _ rfl (by simp)
  valid := by simp [ValidLimits, hlu.le]
  meth := fun n ω => ⟨[(("L".toList, "A".toList), _)], [], rfl, by simp, by simp⟩
  ref := fun n ω => ⟨[], [(("L".toList, "B".toList), _)], rfl, by simp, by simp⟩
  boundX := fun i ω => by simpa using hX i ω
  boundY := fun i ω => by simpa using hY i ω

/-- `loss_summary_table` succeeds on it. -/
theorem pairTable_out {X Y : ℕ → Ω → ℝ} {l u : ℝ} (hX : ∀ i ω, l ≤ X i ω ∧ X i ω ≤ u) (hY : ∀ i ω, l ≤ Y i ω ∧ Y i ω ≤ u)
    (hlu : l < u) (pairwise : Bool) (M : EBMethod) (hM : M = .t ∨ M = .bernstein) :
    ∃ a b : ℕ → Ω → Flt ℝ × Flt ℝ × Flt ℝ, ∀ n ω, 2 ≤ n →
      lossSummaryTable studentT (pairTable X Y n ω) "A".toList pairwise (.fin (19 / 20)) M
        [("L".toList, (.fin l, .fin u))] (fun _ _ => ⟨[], []⟩) = .ok [[a n ω, b n ω]] ∧
      SummaryCell (pairTable X Y n ω) [[a n ω, b n ω]] "L".toList "A".toList (a n ω) ∧
      SummaryCell (pairTable X Y n ω) [[a n ω, b n ω]] "L".toList "B".toList (b n ω) := by
  have hg := pairTable_growing hX hY hlu
  have h : ∀ n ω, ∃ a b : Flt ℝ × Flt ℝ × Flt ℝ, 2 ≤ n →
      lossSummaryTable studentT (pairTable X Y n ω) "A".toList pairwise (.fin (19 / 20)) M
        [("L".toList, (.fin l, .fin u))] (fun _ _ => ⟨[], []⟩) = .ok [[a, b]] := by
    intro n ω
    by_cases hn : 2 ≤ n
    swap
    · exact ⟨(.nan, .nan, .nan), (.nan, .nan, .nan), fun h => absurd h hn⟩
    have hs : ∃ out, lossSummaryTable studentT (pairTable X Y n ω) "A".toList pairwise (.fin (19 / 20)) M
        [("L".toList, (.fin l, .fin u))] (fun _ _ => ⟨[], []⟩) = .ok out := by
      refine C52_success studentT pairwise (by norm_num) (by norm_num) (by rcases hM with rfl | rfl <;> simp)
        (fun h => studentT_isSymmetric (by omega)) (by rcases hM with rfl | rfl <;> simp)
        (by simp [pairTable]) (show 1 ≤ n by omega) (by simp [pairTable]) ?_
      intro metric hm
      simp only [pairTable, List.mem_singleton] at hm
      subst hm
      refine ⟨.fin l, .fin u, hg.limits, hg.valid, fun method hme => ?_⟩
      simp only [pairTable, List.mem_cons, List.not_mem_nil, or_false] at hme
      rcases hme with rfl | rfl
      · exact ⟨_, hg.ref n ω, observedN_length _ _ ω, observedN_within hg.boundY n ω⟩
      · exact ⟨_, hg.meth n ω, observedN_length _ _ ω, observedN_within hg.boundX n ω⟩
    obtain ⟨out, hout⟩ := hs
    have h := C51_cells hout
    simp only [pairTable] at h
    cases h with
    | cons h1 h2 =>
      cases h2
      cases h1 with
      | cons ha h3 =>
        cases h3 with
        | cons hb h4 =>
          cases h4
          exact ⟨_, _, fun _ => hout⟩
  choose a b hab using h
  exact ⟨a, b, fun n ω hn => ⟨hab n ω hn, ⟨0, 0, _, rfl, rfl, rfl, rfl⟩, ⟨0, 1, _, rfl, rfl, rfl, rfl⟩⟩⟩

theorem coinLoss_bounds (b : Bool) : 0 ≤ coinLoss b ∧ coinLoss b ≤ 1 := by
  unfold coinLoss; split <;> simp

/-- The zero-one losses of a reference that is always right and of a method that guesses. -/
noncomputable def guessTable (n : ℕ) (ω : ℕ → Bool) : LossTable := pairTable (fun i (ω : ℕ → Bool) => coinLoss (ω i)) (fun _ _ => 0) n ω

/-- C131 for the error bar of the guesses. -/
example : ∃ cell : ℕ → (ℕ → Bool) → Flt ℝ × Flt ℝ × Flt ℝ,
    (∀ n ω, 2 ≤ n → ∃ cellRef, lossSummaryTable studentT (guessTable n ω) "A".toList false (.fin (19 / 20)) .t
      [("L".toList, (.fin 0, .fin 1))] (fun _ _ => ⟨[], []⟩) = .ok [[cellRef, cell n ω]]) ∧
    ProbTendsto (Measure.infinitePi fun _ : ℕ => penny) (fun n => {ω | ∃ mu e : ℝ, (cell n ω).1 = .fin mu ∧
      (cell n ω).2.1 = .fin e ∧ mu - e ≤ 1 / 2 ∧ 1 / 2 ≤ mu + e}) (19 / 20) := by
  obtain ⟨a, b, hab⟩ := pairTable_out (X := fun i (ω : ℕ → Bool) => coinLoss (ω i)) (Y := fun _ _ => 0)
    (fun i ω => coinLoss_bounds _) (by simp) zero_lt_one false .t (by simp)
  refine ⟨b, fun n ω hn => ⟨a n ω, (hab n ω hn).1⟩, ?_⟩
  exact C131_error_bar (pairTable_growing (fun i ω => coinLoss_bounds _) (by simp) zero_lt_one) coin_stream (by norm_num)
    (by norm_num) (fun n ω hn => (hab n ω hn).1) (fun n ω hn => (hab n ω hn).2.2)

/-- C131 for the pairwise error bar: the guesses are expected to be wrong in 1/2 of the rows more than the reference. -/
example : ∃ cell cellRef : ℕ → (ℕ → Bool) → Flt ℝ × Flt ℝ × Flt ℝ,
    (∀ n ω, 2 ≤ n → lossSummaryTable studentT (guessTable n ω) "A".toList true (.fin (19 / 20)) .t
      [("L".toList, (.fin 0, .fin 1))] (fun _ _ => ⟨[], []⟩) = .ok [[cellRef n ω, cell n ω]]) ∧
    ProbTendsto (Measure.infinitePi fun _ : ℕ => penny) (fun n => {ω | ∃ mu muRef e : ℝ, (cell n ω).1 = .fin mu ∧
      (cellRef n ω).1 = .fin muRef ∧ (cell n ω).2.1 = .fin e ∧ (mu - muRef) - e ≤ 1 / 2 ∧ 1 / 2 ≤ (mu - muRef) + e})
      (19 / 20) := by
  obtain ⟨a, b, hab⟩ := pairTable_out (X := fun i (ω : ℕ → Bool) => coinLoss (ω i)) (Y := fun _ _ => 0)
    (fun i ω => coinLoss_bounds _) (by simp) zero_lt_one true .t (by simp)
  refine ⟨b, a, fun n ω hn => (hab n ω hn).1, ?_⟩
  exact C131_pairwise (pairTable_growing (fun i ω => coinLoss_bounds _) (by simp) zero_lt_one) (by decide)
    (by simpa using coin_stream) (by norm_num) (by norm_num)
    (fun n ω hn => (hab n ω hn).1) (fun n ω hn => (hab n ω hn).2.2) (fun n ω hn => (hab n ω hn).2.1)

/-- Losses that differ by 1 from a reference of loss 1, above and below with the same probability. -/
theorem fair_stream : DataStream (Measure.infinitePi fun _ : ℕ => penny) (fun i ω => 2 * coinLoss (ω i) - 1) 0 :=
  iid_stream (f := fun b => 2 * coinLoss b - 1) (Measurable.of_discrete) (.of_finite) (by rw [penny_integral]; norm_num [coinLoss])
    (by rw [penny_integral]; norm_num [coinLoss])

/-- C131 for p-values: the p-value of such a method is at most 5 % with a probability that tends to 5 %. -/
example : ∃ cell : ℕ → (ℕ → Bool) → Flt ℝ × Flt ℝ × Flt ℝ,
    (∀ n ω, 2 ≤ n → ∃ cellRef, lossSummaryTable studentT (pairTable (fun i (ω : ℕ → Bool) => 2 * coinLoss (ω i)) (fun _ _ => 1) n ω)
      "A".toList true (.fin (19 / 20)) .t [("L".toList, (.fin 0, .fin 2))] (fun _ _ => ⟨[], []⟩) = .ok [[cellRef, cell n ω]]) ∧
    ProbTendsto (Measure.infinitePi fun _ : ℕ => penny) (fun n => {ω | ∃ p : ℝ, (cell n ω).2.2 = .fin p ∧ p ≤ 5 / 100})
      (5 / 100) := by
  have hb : ∀ (i : ℕ) (ω : ℕ → Bool), 0 ≤ 2 * coinLoss (ω i) ∧ 2 * coinLoss (ω i) ≤ 2 := fun i ω => by
    have := coinLoss_bounds (ω i); constructor <;> linarith
  obtain ⟨a, b, hab⟩ := pairTable_out (X := fun i (ω : ℕ → Bool) => 2 * coinLoss (ω i)) (Y := fun _ _ => 1)
    hb (by norm_num) zero_lt_two true .t (by simp)
  refine ⟨b, fun n ω hn => ⟨a n ω, (hab n ω hn).1⟩, ?_⟩
  exact C131_p_value (pairTable_growing hb (by norm_num) zero_lt_two) (by decide) fair_stream true (19 / 20)
    (fun n ω hn => (hab n ω hn).1) (fun n ω hn => (hab n ω hn).2.2) (by norm_num) (by norm_num)

end Mlp.Props
