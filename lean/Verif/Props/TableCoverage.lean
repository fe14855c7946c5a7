import Verif.Props.Coverage
import Verif.Props.LossTable

/-! # C94: the promises of `loss_summary_table` with Bernstein intervals -/

namespace Mlp.Props
open Mlp.Paper Mlp.Spec Mlp.Lemmas MeasureTheory ProbabilityTheory

variable {Ω : Type} [MeasurableSpace Ω] {P : Measure Ω} [IsProbabilityMeasure P]

/-- `cell` is the entry of the summary for the given metric and method. -/
def SummaryCell (tbl : LossTable) (out : List (List (Flt ℝ × Flt ℝ × Flt ℝ))) (metric method : Str)
    (cell : Flt ℝ × Flt ℝ × Flt ℝ) : Prop :=
  ∃ (i j : ℕ) (row : List (Flt ℝ × Flt ℝ × Flt ℝ)), tbl.metrics[i]? = some metric ∧ tbl.methods[j]? = some method ∧
    out[i]? = some row ∧ row[j]? = some cell

theorem forall₂_getElem? {α β : Type} {R : α → β → Prop} {l : List α} {l' : List β} (h : List.Forall₂ R l l')
    {i : ℕ} {a : α} {b : β} (ha : l[i]? = some a) (hb : l'[i]? = some b) : R a b := by
  obtain ⟨h1, rfl⟩ := List.getElem?_eq_some_iff.1 ha
  obtain ⟨h2, rfl⟩ := List.getElem?_eq_some_iff.1 hb
  exact (List.forall₂_iff_get.1 h).2 i h1 h2

/-- Cells are what C51 says. -/
theorem summaryCell_isCell {T : Nat → RefDist} {tbl : LossTable} {refMethod : Str} {pairwise : Bool}
    {confidence : Flt ℝ} {methodEB : EBMethod} {limits : List (Str × (Flt ℝ × Flt ℝ))}
    {draws : Str → Str → Draws} {out : List (List (Flt ℝ × Flt ℝ × Flt ℝ))}
    (h : lossSummaryTable T tbl refMethod pairwise confidence methodEB limits draws = .ok out)
    {metric method : Str} {cell : Flt ℝ × Flt ℝ × Flt ℝ} (hc : SummaryCell tbl out metric method cell) :
    IsCell T tbl refMethod pairwise confidence methodEB limits draws metric method cell := by
  obtain ⟨i, j, row, h1, h2, h3, h4⟩ := hc
  exact forall₂_getElem? (forall₂_getElem? (C51_cells h) h1 h3) h2 h4

theorem observed_sub {n : ℕ} (X Y : Fin n → Ω → ℝ) (ω : Ω) :
    List.zipWith (· - ·) (observed X ω) (observed Y ω) = observed (fun i ω => X i ω - Y i ω) ω := by
  apply List.ext_getElem
  · simp [observed]
  · intro k h1 h2
    simp [observed]

theorem limitsOf_unique {limits : List (Str × (Flt ℝ × Flt ℝ))} {metric : Str} {a b a' b' : Flt ℝ}
    (h : LimitsOf limits metric a b) (h' : LimitsOf limits metric a' b') : a = a' ∧ b = b' := by
  have e := (limitsGet_spec limits metric _ _).2 h
  rw [(limitsGet_spec limits metric _ _).2 h'] at e
  cases e
  exact ⟨rfl, rfl⟩

/-- A random loss table: for one metric with limits `[l, u]` the losses of a method and of the reference are random
numbers within the limits, each with the same mean in all rows, and what happens in different rows is independent
(the two losses in a row may depend on each other). -/
structure RandomLosses (P : Measure Ω) {n : ℕ} (tbl : Ω → LossTable) (metric method refMethod : Str)
    (limits : List (Str × (Flt ℝ × Flt ℝ))) (l u : ℝ) (X Y : Fin n → Ω → ℝ) (mX mY : ℝ) : Prop where
  rows : 1 ≤ n
  limits : LimitsOf limits metric (.fin l) (.fin u)
  le : l ≤ u
  meth : ∀ ω, HasLoss (tbl ω) metric method (finVec (observed X ω))
  ref : ∀ ω, HasLoss (tbl ω) metric refMethod (finVec (observed Y ω))
  measX : ∀ i, Measurable (X i)
  measY : ∀ i, Measurable (Y i)
  boundX : ∀ i ω, l ≤ X i ω ∧ X i ω ≤ u
  boundY : ∀ i ω, l ≤ Y i ω ∧ Y i ω ≤ u
  meanX : ∀ i, ∫ ω, X i ω ∂P = mX
  meanY : ∀ i, ∫ ω, Y i ω ∂P = mY
  indep : iIndepFun (fun i ω => (X i ω, Y i ω)) P

section
variable {n : ℕ} {tbl : Ω → LossTable} {metric method refMethod : Str} {limits : List (Str × (Flt ℝ × Flt ℝ))}
  {l u : ℝ} {X Y : Fin n → Ω → ℝ} {mX mY : ℝ}

theorem RandomLosses.indepX (h : RandomLosses P tbl metric method refMethod limits l u X Y mX mY) : iIndepFun X P :=
  h.indep.comp (fun _ (p : ℝ × ℝ) => p.1) fun _ => measurable_fst

theorem RandomLosses.indepD (h : RandomLosses P tbl metric method refMethod limits l u X Y mX mY) :
    iIndepFun (fun i ω => X i ω - Y i ω) P :=
  h.indep.comp (fun _ (p : ℝ × ℝ) => p.1 - p.2) fun _ => measurable_fst.sub measurable_snd

theorem RandomLosses.boundD (h : RandomLosses P tbl metric method refMethod limits l u X Y mX mY) (i : Fin n) (ω : Ω) :
    -(u - l) ≤ X i ω - Y i ω ∧ X i ω - Y i ω ≤ u - l := by
  have a := h.boundX i ω
  have b := h.boundY i ω
  constructor <;> linarith [a.1, a.2, b.1, b.2]

theorem RandomLosses.meanD (h : RandomLosses P tbl metric method refMethod limits l u X Y mX mY) (i : Fin n) :
    ∫ ω, (X i ω - Y i ω) ∂P = mX - mY := by
  rw [integral_sub, h.meanX, h.meanY]
  · exact Integrable.of_mem_Icc l u (h.measX i).aemeasurable (Filter.Eventually.of_forall fun ω => h.boundX i ω)
  · exact Integrable.of_mem_Icc l u (h.measY i).aemeasurable (Filter.Eventually.of_forall fun ω => h.boundY i ω)

/-- What a cell of a random loss table is. -/
theorem RandomLosses.cell (h : RandomLosses P tbl metric method refMethod limits l u X Y mX mY) {T : Nat → RefDist}
    {pairwise : Bool} {c : ℝ} {draws : Str → Str → Draws} {ω : Ω}
    {out : List (List (Flt ℝ × Flt ℝ × Flt ℝ))}
    (ho : lossSummaryTable T (tbl ω) refMethod pairwise (.fin c) .bernstein limits draws = .ok out)
    {cell : Flt ℝ × Flt ℝ × Flt ℝ} (hc : SummaryCell (tbl ω) out metric method cell) :
    cell.1 = .fin (avg (observed X ω)) ∧
    (pairwise = true → method ≠ refMethod →
      ∃ m, getMeanEB T (finVec (observed (fun i ω => X i ω - Y i ω) ω)) (.fin c) (.fin 0) (.fin (-(u - l)))
          (.fin (u - l)) .bernstein (draws metric method).eb = .ok (m, cell.2.1) ∧
        bernsteinTest (finVec (observed (fun i ω => X i ω - Y i ω) ω)) (.fin (-(u - l))) (.fin (u - l)) =
          .ok cell.2.2) ∧
    (pairwise = false →
      getMeanEB T (finVec (observed X ω)) (.fin c) (.fin 0) (.fin l) (.fin u) .bernstein (draws metric method).eb =
        .ok (.fin (avg (observed X ω)), cell.2.1) ∧
      (method ≠ refMethod →
        bernsteinTest (finVec (observed (fun i ω => X i ω - Y i ω) ω)) (.fin (-(u - l))) (.fin (u - l)) =
          .ok cell.2.2)) := by
  obtain ⟨loss, lossRef, lo, hi, h1, h2, h3, -, -, -, -, h8, -, h10, h11⟩ := summaryCell_isCell ho hc
  obtain rfl := hasLoss_unique (h.meth ω) h1
  obtain rfl := hasLoss_unique (h.ref ω) h2
  obtain ⟨rfl, rfl⟩ := limitsOf_unique h.limits h3
  have hne : observed X ω ≠ [] := fun e => by
    have := observed_length X ω
    rw [e] at this
    have h9 := h.rows
    simp at this
    omega
  rw [deltas_finVec, observed_sub] at h10 h11
  rw [mean_finVec hne] at h8 h11
  simp only [Flt.sub_fin, Flt.neg_fin] at h10 h11
  refine ⟨h8, fun hp hm => ?_, fun hp => ⟨(h11 hp).1, (h11 hp).2.2⟩⟩
  obtain ⟨m, hm'⟩ := h10 hp hm
  have := (C49_agree T _ _ _ _ _ _ _ m cell.2.1 cell.2.2).1 hm'
  exact ⟨m, this.1, this.2⟩

/-- The mean shown for the reference. -/
theorem RandomLosses.cell_ref (h : RandomLosses P tbl metric method refMethod limits l u X Y mX mY) {T : Nat → RefDist}
    {pairwise : Bool} {c : Flt ℝ} {methodEB : EBMethod} {draws : Str → Str → Draws} {ω : Ω}
    {out : List (List (Flt ℝ × Flt ℝ × Flt ℝ))}
    (ho : lossSummaryTable T (tbl ω) refMethod pairwise c methodEB limits draws = .ok out)
    {cell : Flt ℝ × Flt ℝ × Flt ℝ} (hc : SummaryCell (tbl ω) out metric refMethod cell) :
    cell.1 = .fin (avg (observed Y ω)) := by
  obtain ⟨loss, lossRef, lo, hi, h1, h2, h3, -, -, -, -, h8, -⟩ := summaryCell_isCell ho hc
  obtain rfl := hasLoss_unique (h.ref ω) h1
  rw [h8]
  refine mean_finVec fun e => ?_
  have := observed_length Y ω
  rw [e] at this
  have h9 := h.rows
  simp at this
  omega

/-- **C94, error bars.** Without `pairwise_CI`, the mean and the error bar that the table shows for a method contain the true
expected loss of the method with probability at least the confidence. -/
theorem C94_error_bar (h : RandomLosses P tbl metric method refMethod limits l u X Y mX mY) (T : Nat → RefDist)
    {c : ℝ} (h0 : 0 < c) (h1 : c < 1) {draws : Ω → Str → Str → Draws}
    {out : Ω → List (List (Flt ℝ × Flt ℝ × Flt ℝ))}
    (ho : ∀ ω, lossSummaryTable T (tbl ω) refMethod false (.fin c) .bernstein limits (draws ω) = .ok (out ω))
    {cell : Ω → Flt ℝ × Flt ℝ × Flt ℝ} (hc : ∀ ω, SummaryCell (tbl ω) (out ω) metric method (cell ω)) :
    Likely P c {ω | ∃ mu e : ℝ, (cell ω).1 = .fin mu ∧ (cell ω).2.1 = .fin e ∧ mu - e ≤ mX ∧ mX ≤ mu + e} := by
  refine (C93_mean_and_EB T h.rows h.measX h.indepX h.le h.boundX h.meanX h0 h1 le_rfl
    (by linarith [h.le]) fun ω => (draws ω metric method).eb).2.mono ?_
  rintro ω ⟨mu, e, he, hcov⟩
  have hcell := h.cell (ho ω) (hc ω)
  have h2 := (hcell.2.2 rfl).1
  rw [h2] at he
  injection he with he
  injection he with he1 he2
  exact ⟨mu, e, hcell.1.trans he1, he2, hcov⟩

/-- **C94, pairwise error bars.** With `pairwise_CI`, the difference of the two means in the table and the error bar of the
method contain the true difference in expected loss with probability at least the confidence. -/
theorem C94_pairwise (h : RandomLosses P tbl metric method refMethod limits l u X Y mX mY) (hne : method ≠ refMethod)
    (T : Nat → RefDist) {c : ℝ} (h0 : 0 < c) (h1 : c < 1) {draws : Ω → Str → Str → Draws}
    {out : Ω → List (List (Flt ℝ × Flt ℝ × Flt ℝ))}
    (ho : ∀ ω, lossSummaryTable T (tbl ω) refMethod true (.fin c) .bernstein limits (draws ω) = .ok (out ω))
    {cell cellRef : Ω → Flt ℝ × Flt ℝ × Flt ℝ} (hc : ∀ ω, SummaryCell (tbl ω) (out ω) metric method (cell ω))
    (hr : ∀ ω, SummaryCell (tbl ω) (out ω) metric refMethod (cellRef ω)) :
    Likely P c {ω | ∃ mu muRef e : ℝ, (cell ω).1 = .fin mu ∧ (cellRef ω).1 = .fin muRef ∧ (cell ω).2.1 = .fin e ∧
      (mu - muRef) - e ≤ mX - mY ∧ mX - mY ≤ (mu - muRef) + e} := by
  have hlu := h.le
  have hD := C93_mean_and_EB T h.rows (X := fun i ω => X i ω - Y i ω) (fun i => (h.measX i).sub (h.measY i)) h.indepD
    (l := -(u - l)) (u := u - l) (by linarith) h.boundD h.meanD h0 h1 le_rfl (by linarith)
    fun ω => (draws ω metric method).eb
  refine hD.2.mono ?_
  rintro ω ⟨mu, e, he, hcov⟩
  have hcell := h.cell (ho ω) (hc ω)
  have hcellR := h.cell_ref (ho ω) (hr ω)
  obtain ⟨m, h2, -⟩ := hcell.2.1 rfl hne
  obtain ⟨e', h3⟩ := hD.1 ω
  rw [h2] at he h3
  injection he with he
  injection he with he1 he2
  injection h3 with h3
  injection h3 with h31 h32
  have hmu : mu = avg (observed X ω) - avg (observed Y ω) := by
    have := he1.symm.trans h31
    injection this with this
    rw [this]
    simp only [observed_avg, Finset.sum_sub_distrib, sub_div]
  exact ⟨_, _, e, hcell.1, hcellR, he2, hmu ▸ hcov⟩

/-- **C94, p-values.** If the method has the same expected loss as the reference, then its p-value in the table is at most `α`
with probability at most `α`, with and without `pairwise_CI`. -/
theorem C94_p_value (h : RandomLosses P tbl metric method refMethod limits l u X Y mX mX) (hne : method ≠ refMethod)
    (T : Nat → RefDist) (pairwise : Bool) (c : ℝ) {draws : Ω → Str → Str → Draws}
    {out : Ω → List (List (Flt ℝ × Flt ℝ × Flt ℝ))}
    (ho : ∀ ω, lossSummaryTable T (tbl ω) refMethod pairwise (.fin c) .bernstein limits (draws ω) = .ok (out ω))
    {cell : Ω → Flt ℝ × Flt ℝ × Flt ℝ} (hc : ∀ ω, SummaryCell (tbl ω) (out ω) metric method (cell ω)) {α : ℝ}
    (hα : 0 ≤ α) : P.real {ω | ∃ p : ℝ, (cell ω).2.2 = .fin p ∧ p ≤ α} ≤ α := by
  have hlu := h.le
  refine (measureReal_mono ?_).trans (C93_test (X := fun i ω => X i ω - Y i ω) (fun i => (h.measX i).sub (h.measY i)) h.indepD (l := -(u - l))
    (u := u - l) (by linarith) h.boundD (fun i => by rw [h.meanD, sub_self]) hα).2
  rintro ω ⟨p, hp, hle⟩
  have hcell := h.cell (ho ω) (hc ω)
  refine ⟨p, ?_, hle⟩
  rw [← hp]
  cases pairwise with
  | true => obtain ⟨m, -, h3⟩ := hcell.2.1 rfl hne; exact h3
  | false => exact (hcell.2.2 rfl).2 hne

end

/-! ### A concrete case: two classifiers that guess -/

/-- The table of ten losses of two methods: `A` loses 1 when the coin shows heads, `B` when it shows tails. -/
noncomputable def coinTable (ω : Fin 10 → Bool) : LossTable :=
  ⟨["L".toList], ["A".toList, "B".toList], 10,
    [(("L".toList, "A".toList), finVec (observed (toss 10) ω)),
     (("L".toList, "B".toList), finVec (observed (fun i ω => -toss 10 i ω) ω))]⟩

theorem coin_losses : RandomLosses (Measure.pi fun _ : Fin 10 => fairCoin) coinTable "L".toList "B".toList "A".toList
    [("L".toList, (Flt.fin (-1), Flt.fin 1))] (-1) 1 (fun i ω => -toss 10 i ω) (toss 10) 0 0 where
  rows := by norm_num
  limits := .given [] [] _ _ rfl (by simp)
  le := by norm_num
  meth ω := ⟨[(("L".toList, "A".toList), finVec (observed (toss 10) ω))], [], rfl, by simp, by simp⟩
  ref ω := ⟨[], [(("L".toList, "B".toList), finVec (observed (fun i ω => -toss 10 i ω) ω))], rfl, by simp, by simp⟩
  measX i := (toss_measurable 10 i).neg
  measY := toss_measurable 10
  boundX i ω := by have := toss_bounds 10 i ω; constructor <;> linarith [this.1, this.2]
  boundY := toss_bounds 10
  meanX i := by rw [integral_neg, toss_mean, neg_zero]
  meanY := toss_mean 10
  indep := (toss_indep 10).comp (fun _ x => (-x, x)) fun _ => measurable_neg.prodMk measurable_id

theorem coinTable_success (pairwise : Bool) (ω : Fin 10 → Bool) : ∃ out, lossSummaryTable studentT (coinTable ω)
    "A".toList pairwise (.fin (19 / 20)) .bernstein [("L".toList, (Flt.fin (-1), Flt.fin 1))] (fun _ _ => ⟨[], []⟩) =
      .ok out := by
  refine C52_success studentT pairwise (by norm_num) (by norm_num) (by simp)
    (fun _ => studentT_isSymmetric (by simp [coinTable])) (by simp) (by simp [coinTable]) (by simp [coinTable])
    (by simp [coinTable]) ?_
  intro metric hm
  simp only [coinTable, List.mem_singleton] at hm
  subst hm
  refine ⟨.fin (-1), .fin 1, coin_losses.limits, by simp [ValidLimits], fun method hme => ?_⟩
  simp only [coinTable, List.mem_cons, List.not_mem_nil, or_false] at hme
  rcases hme with rfl | rfl
  · refine ⟨_, coin_losses.ref ω, observed_length _ ω, fun x hx => ?_⟩
    simpa using observed_within coin_losses.boundY ω x hx
  · refine ⟨_, coin_losses.meth ω, observed_length _ ω, fun x hx => ?_⟩
    simpa using observed_within coin_losses.boundX ω x hx

/-- C94 on this table: the p-value of `B` is at most 5% with probability at most 5%, and the pairwise interval contains
the true difference 0 with probability 95%. -/
example : ∃ cell cellRef : (Fin 10 → Bool) → Flt ℝ × Flt ℝ × Flt ℝ,
    (∀ ω, lossSummaryTable studentT (coinTable ω) "A".toList true (.fin (19 / 20)) .bernstein
      [("L".toList, (Flt.fin (-1), Flt.fin 1))] (fun _ _ => ⟨[], []⟩) = .ok [[cellRef ω, cell ω]]) ∧
    (Measure.pi fun _ : Fin 10 => fairCoin).real {ω | ∃ p : ℝ, (cell ω).2.2 = .fin p ∧ p ≤ 5 / 100} ≤ 5 / 100 ∧
    Likely (Measure.pi fun _ : Fin 10 => fairCoin) (19 / 20) {ω | ∃ mu muRef e : ℝ, (cell ω).1 = .fin mu ∧
      (cellRef ω).1 = .fin muRef ∧ (cell ω).2.1 = .fin e ∧ (mu - muRef) - e ≤ 0 - 0 ∧ 0 - 0 ≤ (mu - muRef) + e} := by
  have h : ∀ ω, ∃ a b, lossSummaryTable studentT (coinTable ω) "A".toList true (.fin (19 / 20)) .bernstein
      [("L".toList, (Flt.fin (-1), Flt.fin 1))] (fun _ _ => ⟨[], []⟩) = .ok [[a, b]] := by
    intro ω
    obtain ⟨out, hout⟩ := coinTable_success true ω
    have h := C51_cells hout
    simp only [coinTable] at h
    cases h with
    | cons h1 h2 =>
      cases h2
      cases h1 with
      | cons ha h3 =>
        cases h3 with
        | cons hb h4 =>
          cases h4
          exact ⟨_, _, hout⟩
  choose a b hab using h
  have hcb : ∀ ω, SummaryCell (coinTable ω) [[a ω, b ω]] "L".toList "B".toList (b ω) := fun ω =>
    ⟨0, 1, _, rfl, rfl, rfl, rfl⟩
  have hca : ∀ ω, SummaryCell (coinTable ω) [[a ω, b ω]] "L".toList "A".toList (a ω) := fun ω =>
    ⟨0, 0, _, rfl, rfl, rfl, rfl⟩
  exact ⟨b, a, hab, C94_p_value coin_losses (by simp) studentT true (19 / 20) hab hcb (by norm_num),
    C94_pairwise coin_losses (by simp) studentT (by norm_num) (by norm_num) hab hcb hca⟩

end Mlp.Props
