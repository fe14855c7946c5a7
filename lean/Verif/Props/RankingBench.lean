import Verif.Props.Ranking
import Verif.Props.BenchRisk
import Verif.Props.Auc

/-! # C142: the AUC of a benchmark estimates the probability that cases are ranked correctly -/

namespace Mlp.Props
open Mlp Mlp.Util Mlp.Spec Mlp.Classif Mlp.Lemmas Mlp.Frame Mlp.Boot Mlp.Perf Mlp.Paper MeasureTheory ProbabilityTheory

/-- The Mann-Whitney statistic without weights is the share of correctly ordered pairs. -/
theorem mannWhitney_share {n : ℕ} (lab : Fin n → Bool) (s : Fin n → ℝ) :
    mannWhitney (samples (List.ofFn lab) (List.ofFn s) (List.replicate n 1)) = rankShare lab s := by
  have e : samples (List.ofFn lab) (List.ofFn s) (List.replicate n (1 : ℝ)) = List.ofFn fun i => ⟨s i, lab i, 1⟩ := by
    apply List.ext_getElem
    · simp [samples]
    · intro i h1 h2
      simp [samples]
  have hp : posTotal (List.ofFn fun i => (⟨s i, lab i, 1⟩ : Sample ℝ)) = numLab lab true := by
    unfold posTotal wsum numLab
    rw [List.map_ofFn, List.sum_ofFn]
    simp [Finset.sum_ite]
  have hn : negTotal (List.ofFn fun i => (⟨s i, lab i, 1⟩ : Sample ℝ)) = numLab lab false := by
    unfold negTotal wsum numLab
    rw [List.map_ofFn, List.sum_ofFn]
    simp [Finset.sum_ite]
  have ho : orderedPairs (List.ofFn fun i => (⟨s i, lab i, 1⟩ : Sample ℝ)) = ∑ p ∈ rankPairs lab, ordered (s p.1) (s p.2) := by
    unfold orderedPairs rankPairs
    rw [List.map_ofFn, List.sum_ofFn, Finset.sum_product, Finset.sum_filter]
    refine Finset.sum_congr rfl fun i _ => ?_
    simp only [Function.comp_apply]
    split_ifs
    · rw [List.map_ofFn, List.sum_ofFn, Finset.sum_filter]
      refine Finset.sum_congr rfl fun j _ => ?_
      cases hj : lab j <;> simp [hj]
    · rfl
  rw [e, mannWhitney, hp, hn, ho]
  rfl

/-- Test data with a positive and a negative case is valid input. -/
theorem share_input {n : ℕ} {lab : Fin n → Bool} (h1 : 0 < numLab lab true) (h0 : 0 < numLab lab false) (s : Fin n → ℝ) :
    CurveInput (List.ofFn lab) (List.ofFn s) none ∧ true ∈ List.ofFn lab ∧ false ∈ List.ofFn lab := by
  obtain ⟨i, hi⟩ := Finset.card_pos.1 h1
  obtain ⟨j, hj⟩ := Finset.card_pos.1 h0
  refine ⟨⟨by simp, by
      intro e
      rw [List.ofFn_eq_nil_iff] at e
      subst e
      exact i.elim0, by simp [weightRows], by
      intro w hw
      simp only [weightRows, Option.getD_none, List.mem_singleton] at hw
      subst hw
      refine ⟨by simp, fun v hv => ?_⟩
      rw [List.eq_of_mem_replicate hv]
      norm_num⟩, List.mem_ofFn.2 ⟨i, (Finset.mem_filter.1 hi).2⟩, List.mem_ofFn.2 ⟨j, (Finset.mem_filter.1 hj).2⟩⟩

/-- The area under the ROC curve of unweighted samples. -/
theorem roc_share_iff {n : ℕ} {lab : Fin n → Bool} (h1 : 0 < numLab lab true) (h0 : 0 < numLab lab false) (s : Fin n → ℝ) {A : List (Flt ℝ)} :
    AreaOf rocCurve (List.ofFn lab) (finVec (List.ofFn s)) none A ↔ A = [.fin (rankShare lab s)] := by
  obtain ⟨hin, ht, hf⟩ := share_input h1 h0 s
  have e : finVec ((weightRows (List.ofFn lab).length none).map fun w => mannWhitney (samples (List.ofFn lab) (List.ofFn s) w)) =
      [.fin (rankShare lab s)] := by
    simp only [weightRows, Option.getD_none, List.length_ofFn, List.map_cons, List.map_nil, mannWhitney_share, finVec]
  obtain ⟨thr, -, hc⟩ := C64_roc hin
  have ha := C68_mann_whitney hin ht hf hc
  rw [e] at ha
  constructor
  · rintro ⟨c', thr', hc', ha'⟩
    rw [show rocCurve (List.ofFn lab) (finVec (List.ofFn s)) none = _ from hc, Except.ok.injEq, Prod.mk.injEq] at hc'
    obtain ⟨rfl, rfl⟩ := hc'
    rw [ha', Except.ok.injEq] at ha
    exact ha
  · rintro rfl
    exact ⟨_, _, hc, ha⟩

theorem roc_share {n : ℕ} {lab : Fin n → Bool} (h1 : 0 < numLab lab true) (h0 : 0 < numLab lab false) (s : Fin n → ℝ) {A : List (Flt ℝ)}
    (h : AreaOf rocCurve (List.ofFn lab) (finVec (List.ofFn s)) none A) : A = [.fin (rankShare lab s)] := (roc_share_iff h1 h0 s).1 h

theorem rankShare_mono {n : ℕ} {lab : Fin n → Bool} {s s' : Fin n → ℝ} (h : ∀ i j, s i < s j ↔ s' i < s' j) : rankShare lab s = rankShare lab s' := by
  unfold rankShare
  congr 1
  refine Finset.sum_congr rfl fun p _ => ?_
  unfold ordered
  have e : s p.1 = s p.2 ↔ s' p.1 = s' p.2 := by
    rw [le_antisymm_iff, le_antisymm_iff, ← not_lt, ← not_lt, ← not_lt, ← not_lt, h, h]
  simp only [h, e]

variable {D : Type}

/-- The cell of the area under the ROC curve. -/
theorem bench_auc {T : Nat → RefDist} {other : Interp ℝ} {xTrain : Features D} {yTrain : LabelVec} {xTest : Features D}
    {yTest : LabelVec} {methods : List (Str × Classif.Estimator D)} {losses : List (Str × Metric)}
    {curves : List (Str × CurveF ℝ)} {refMethod : Str} {floor : Flt ℝ} {pairwise : Bool} {methodEB : EBMethod}
    {limits : List (Str × (Flt ℝ × Flt ℝ))} {cd : BootDraws} {ld : Str → Str → Draws} {full : FullTable} {dump : CurveDump ℝ}
    (hn : (methods.map fun m => m.1).Nodup) (hk : (losses.map fun m => m.1).Nodup) (hc : (curves.map (·.1)).Nodup)
    {name : Str} (hname : (name, rocCurve) ∈ curves) (hloss : name ∉ losses.map fun m => m.1)
    {n : ℕ} {lab : Fin n → Bool} {row : Str → Fin n → List (Flt ℝ)}
    (ht : TestSet xTrain yTrain xTest yTest 2 methods floor (fun i => if lab i then 1 else 0) row)
    (h1 : 0 < numLab lab true) (h0 : 0 < numLab lab false)
    (h : Classif.justBenchmark T other xTrain yTrain xTest yTest 2 methods losses curves refMethod floor pairwise
      methodEB limits cd ld = .ok (full, dump)) {m : Str} (hm : m ∈ methods.map fun m => m.1) {cell : Flt ℝ × Flt ℝ × Flt ℝ}
    (hcell : FullCell full name m cell) :
    cell.1 = .fin (rankShare lab fun i => (predicted floor (row m i)).getD 1 0) := by
  obtain ⟨⟨m, est⟩, hmem, rfl⟩ := List.mem_map.1 hm
  obtain ⟨hkind, t, g1, g2⟩ := (classBench_ok_iff ..).1 h
  have huniq : ∀ m ∈ methods, ∀ p, Predicts xTrain yTrain xTest m.2 p → p.rows = List.ofFn (row m.1) := by
    intro m hm p hp
    have a := ht.preds m hm
    have := (trainPredict_ok_iff ..).2 a
    rw [(trainPredict_ok_iff ..).2 hp, Except.ok.injEq] at this
    rw [this]
  have hrect : ∀ m ∈ methods, ∀ p, Predicts xTrain yTrain xTest m.2 p → Rect p := by
    intro m hm p hp r hr
    have a := ht.preds m hm
    have f3 := (trainPredict_ok_iff ..).2 a
    rw [(trainPredict_ok_iff ..).2 hp, Except.ok.injEq] at f3
    rw [f3] at hr ⊢
    obtain ⟨k, rfl⟩ := List.mem_ofFn.1 hr
    rw [ht.width _ hm]
  obtain ⟨hg, hlab, hp, hsort, hnod, hcols, hmm⟩ := C81_table hn hrect g1
  have hM : t.methods.Nodup := hp.nodup_iff.2 hn
  obtain ⟨-, lossNames, lossCols, curveCols, e1, e2, e3, ⟨_, -, -, -, -, e4⟩, e5⟩ := C84_cells hk hM g2
  obtain ⟨i, j, col, c1, c2, c3, c4⟩ := hcell
  have hi : lossNames.length ≤ i := by
    by_contra hcon
    rw [e1, List.getElem?_append_left (not_le.1 hcon)] at c1
    exact hloss (e3.1.mem_iff.1 (List.mem_of_getElem? c1))
  rw [e1, List.getElem?_append_right hi, List.getElem?_map] at c1
  rw [e2, List.getElem?_append_right (by rw [← e4.length_eq]; exact hi), ← e4.length_eq] at c3
  obtain ⟨c, hc1, hc2⟩ : ∃ c, curves[i - lossNames.length]? = some c ∧ c.1 = name := by
    cases hcc : curves[i - lossNames.length]? with
    | none => rw [hcc] at c1; cases c1
    | some c => rw [hcc] at c1; exact ⟨c, rfl, by simpa using c1⟩
  have hcr : c = (name, rocCurve) := by
    obtain ⟨a, ha, ha'⟩ := List.getElem_of_mem hname
    obtain ⟨hb, hb'⟩ := List.getElem?_eq_some_iff.1 hc1
    have : a = i - lossNames.length := by
      refine (List.Nodup.getElem_inj_iff hc (i := a) (j := i - lossNames.length) (hi := by simpa using ha) (hj := by simpa using hb)).1 ?_
      rw [List.getElem_map, List.getElem_map, ha', hb', hc2]
    subst this
    rw [← hb', ha']
  subst hcr
  obtain ⟨hb, hb'⟩ := List.getElem?_eq_some_iff.1 hc1
  obtain ⟨hc3, hc3'⟩ := List.getElem?_eq_some_iff.1 c3
  have f := (List.forall₂_iff_get.1 e5).2 _ hb hc3
  rw [List.get_eq_getElem, List.get_eq_getElem, hb', hc3'] at f
  obtain ⟨hj, hj'⟩ := List.getElem?_eq_some_iff.1 c2
  obtain ⟨hj2, hj2'⟩ := List.getElem?_eq_some_iff.1 c4
  obtain ⟨entry, -, p, q, auc, EB, pval, y1, -, y2, y3, -⟩ := (List.forall₂_iff_get.1 f).2 j hj hj2
  rw [List.get_eq_getElem] at y3
  rw [hj2'] at y3
  rw [List.get_eq_getElem, hj'] at y1 y2
  obtain ⟨p0, q0, x1, x2, -, -, x4, x5⟩ := hmm (m, est) hmem
  obtain rfl := isMatrix_unique rfl rfl (fun _ _ => Iff.rfl) y1 x4
  have hpr : p0.rows = List.ofFn (row m) := huniq _ hmem p0 x1
  have hnr : q0.rows.length = n := by rw [← x5.length_eq, hpr]; simp
  -- the scores
  have hscore : ∃ s : Fin n → ℝ, IsPosScore q0 (finVec (List.ofFn s)) ∧ ∀ i, ∃ z : ℝ, 0 < z ∧ z = Real.exp (s i) ∧ (predicted floor (row m i)).getD 1 0 = z := by
    have key : ∀ i : Fin n, ∃ x : ℝ, q0.rows[(i : ℕ)]?.map (fun r => r.getD 1 .nan) = some (.fin x) ∧ (predicted floor (row m i)).getD 1 0 = Real.exp x := by
      intro i
      have i1 : (i : ℕ) < p0.rows.length := by rw [hpr]; simp
      have i2 : (i : ℕ) < q0.rows.length := by rw [hnr]; exact i.2
      have a := (List.forall₂_iff_get.1 x5).2 i i1 i2
      simp only [List.get_eq_getElem] at a
      have er : p0.rows[(i : ℕ)] = row m i := by simp only [hpr, List.getElem_ofFn]
      rw [er] at a
      have hw : (row m i).length = 2 := ht.width (m, est) hmem i
      have hf : ∀ v ∈ row m i, (max floor v).isFinite = true := ht.finite (m, est) hmem i
      match hrow : row m i, hw with
      | [v0, v1], _ =>
        rw [hrow] at a hf
        have w0 := hf v0 (by simp)
        have w1 := hf v1 (by simp)
        have a2 := a.2 (proper_of_finite (by simp) (by
          intro v hv
          obtain ⟨u, hu, rfl⟩ := List.mem_map.1 hv
          exact hf u hu))
        rw [List.getElem?_eq_getElem i2, a2]
        cases z0 : max floor v0 with
        | fin a0 =>
          cases z1 : max floor v1 with
          | fin a1 =>
            have hpos : 0 < Real.exp a0 + Real.exp a1 := by positivity
            refine ⟨a1 - Real.log (Real.exp a0 + Real.exp a1), ?_, ?_⟩
            · simp [shiftRow, z0, z1, prob, Flt.sub, Flt.add, Flt.neg, sub_eq_add_neg]
            · rw [Real.exp_sub, Real.exp_log hpos]
              simp [predicted, z0, z1, prob]
          | pinf => rw [z1] at w1; cases w1
          | ninf => rw [z1] at w1; cases w1
          | nan => rw [z1] at w1; cases w1
        | pinf => rw [z0] at w0; cases w0
        | ninf => rw [z0] at w0; cases w0
        | nan => rw [z0] at w0; cases w0
    choose s hs hs' using key
    refine ⟨s, ⟨by simp [finVec, hnr], ?_⟩, fun i => ⟨_, Real.exp_pos (s i), rfl, hs' i⟩⟩
    intro i r hr
    have hi : i < n := by rw [← hnr]; exact (List.getElem?_eq_some_iff.1 hr).1
    have := hs ⟨i, hi⟩
    rw [hr] at this
    simp only [Option.map_some, Option.some.injEq] at this
    rw [this]
    simp [finVec, hi]
  obtain ⟨s, hs, hsp⟩ := hscore
  obtain ⟨_, _, _, _, _, _, _, -, -, -, -, -, ha, -⟩ := C82_result y2 hs
  have hbl : boolLabels yTest = List.ofFn lab := by
    unfold boolLabels
    rw [ht.labels, List.map_ofFn]
    congr 1
    funext i
    cases hl : lab i <;> simp [hl]
  rw [hbl] at ha
  have := roc_share h1 h0 s ha
  simp only [List.cons.injEq, and_true] at this
  rw [y3, this]
  congr 1
  refine rankShare_mono fun i j => ?_
  obtain ⟨z, -, rfl, e⟩ := hsp i
  obtain ⟨z', -, rfl, e'⟩ := hsp j
  rw [e, e', Real.exp_lt_exp]

/-- **C142, shown.**  A table of `just_benchmark` has a cell for each curve and method. -/
theorem C142_shown {T : Nat → RefDist} {other : Interp ℝ} {xTrain : Features D} {yTrain : LabelVec} {xTest : Features D}
    {yTest : LabelVec} {nLabels : ℕ} {methods : List (Str × Classif.Estimator D)} {losses : List (Str × Metric)}
    {curves : List (Str × CurveF ℝ)} {refMethod : Str} {floor : Flt ℝ} {pairwise : Bool} {methodEB : EBMethod}
    {limits : List (Str × (Flt ℝ × Flt ℝ))} {cd : BootDraws} {ld : Str → Str → Draws} {full : FullTable} {dump : CurveDump ℝ}
    (hn : (methods.map fun m => m.1).Nodup) (hk : (losses.map fun m => m.1).Nodup)
    (hrect : ∀ m ∈ methods, ∀ p, Predicts xTrain yTrain xTest m.2 p → Rect p)
    (h : Classif.justBenchmark T other xTrain yTrain xTest yTest nLabels methods losses curves refMethod floor pairwise
      methodEB limits cd ld = .ok (full, dump)) {m : Str} (hm : m ∈ methods.map fun m => m.1) {name : Str} (hname : name ∈ curves.map (·.1)) :
    ∃ cell, FullCell full name m cell := by
  obtain ⟨-, t, g1, g2⟩ := (classBench_ok_iff ..).1 h
  obtain ⟨-, -, hp, -⟩ := C81_table hn hrect g1
  obtain ⟨⟨e0, -⟩, lossNames, lossCols, curveCols, e1, e2, -, ⟨_, -, -, -, -, e4⟩, e5⟩ := C84_cells hk (hp.nodup_iff.2 hn) g2
  obtain ⟨i, hi, hi'⟩ := List.getElem_of_mem hname
  obtain ⟨j, hj, hj'⟩ := List.getElem_of_mem (e0.mem_iff.2 (hp.mem_iff.2 hm))
  have hi2 : i < curves.length := by simpa using hi
  have hi3 : i < curveCols.length := by rw [← e5.length_eq]; exact hi2
  have f := (List.forall₂_iff_get.1 e5).2 i hi2 hi3
  rw [List.get_eq_getElem, List.get_eq_getElem] at f
  have hj3 : j < curveCols[i].length := by rw [← f.length_eq]; exact hj
  refine ⟨curveCols[i][j], lossNames.length + i, j, curveCols[i], ?_, ?_, ?_, List.getElem?_eq_getElem hj3⟩
  · rw [e1, List.getElem?_append_right (by omega), Nat.add_sub_cancel_left, List.getElem?_eq_getElem hi, hi']
  · rw [List.getElem?_eq_getElem hj, hj']
  · rw [e2, e4.length_eq, List.getElem?_append_right (by omega), Nat.add_sub_cancel_left, List.getElem?_eq_getElem hi3]

/-! ### The theorems -/

variable {S Ω : Type} [MeasurableSpace S] [MeasurableSpace Ω] {P : Measure Ω} [IsProbabilityMeasure P] {pos neg : Measure S}
  [IsProbabilityMeasure pos] [IsProbabilityMeasure neg]

/-- **C142, one curve.**  Draw the positive cases from one population and the negative cases from another, and score each case.  The area under the ROC
curve is a random number with mean the probability that a new positive case has a higher score than a new negative case (ties count one half), with
variance at most `(1/n₁ + 1/n₀)/4`, and so it is off by `ε` with probability at most `(1/n₁ + 1/n₀)/(4 ε²)`. -/
theorem C142_auc {n : ℕ} {lab : Fin n → Bool} {draw : Fin n → Ω → S} (hd : DrawnCases P pos neg lab draw) {g : S → ℝ} (hg : Measurable g)
    (h1 : 0 < numLab lab true) (h0 : 0 < numLab lab false) :
    ∃ auc : Ω → ℝ, (∀ ω A, AreaOf rocCurve (List.ofFn lab) (finVec (List.ofFn fun i => g (draw i ω))) none A ↔ A = [.fin (auc ω)]) ∧
      Measurable auc ∧ Integrable auc P ∧ ∫ ω, auc ω ∂P = rankProb pos neg g ∧
      ∫ ω, (auc ω - rankProb pos neg g) ^ 2 ∂P ≤ (1 / numLab lab true + 1 / numLab lab false) / 4 ∧
      ∀ ε > 0, P.real {ω | ε ≤ |auc ω - rankProb pos neg g|} ≤ (1 / numLab lab true + 1 / numLab lab false) / (4 * ε ^ 2) :=
  ⟨fun ω => rankShare lab fun i => g (draw i ω), fun _ _ => roc_share_iff h1 h0 _, rankShare_measurable hd hg, (rankShare_integral hd hg h1 h0).1,
    (rankShare_integral hd hg h1 h0).2, rankShare_variance hd hg h1 h0, fun _ hε => rankShare_close hd hg h1 h0 hε⟩

/-- **C142, benchmark.**  The same for the AUC that `just_benchmark` shows for any method, where the score of a case is the probability that the method
predicts for label 1. -/
theorem C142_benchmark {T : Nat → RefDist} {other : Interp ℝ} {xTrain : Features D} {yTrain : LabelVec} {xTest : Ω → Features D}
    {yTest : Ω → LabelVec} {methods : List (Str × Classif.Estimator D)} {losses : List (Str × Metric)}
    {curves : List (Str × CurveF ℝ)} {refMethod : Str} {floor : Flt ℝ} {pairwise : Bool} {methodEB : EBMethod}
    {limits : List (Str × (Flt ℝ × Flt ℝ))} {cd : Ω → BootDraws} {ld : Ω → Str → Str → Draws}
    (hn : (methods.map fun m => m.1).Nodup) (hk : (losses.map fun m => m.1).Nodup) (hc : (curves.map (·.1)).Nodup)
    {name : Str} (hname : (name, rocCurve) ∈ curves) (hloss : name ∉ losses.map fun m => m.1)
    {n : ℕ} {lab : Fin n → Bool} {row : Str → S → List (Flt ℝ)} {draw : Fin n → Ω → S} (hd : DrawnCases P pos neg lab draw)
    (ht : ∀ ω, TestSet xTrain yTrain (xTest ω) (yTest ω) 2 methods floor (fun i => if lab i then 1 else 0) fun m i => row m (draw i ω))
    (h1 : 0 < numLab lab true) (h0 : 0 < numLab lab false) {method : Str} (hm : method ∈ methods.map fun m => m.1)
    (hg : Measurable fun s => (predicted floor (row method s)).getD 1 0) :
    ∃ auc : Ω → ℝ, (∀ ω cell, Shows (Classif.justBenchmark T other xTrain yTrain (xTest ω) (yTest ω) 2 methods losses curves refMethod floor pairwise
        methodEB limits (cd ω) (ld ω)) name method cell → cell.1 = .fin (auc ω)) ∧
      Measurable auc ∧ Integrable auc P ∧ ∫ ω, auc ω ∂P = rankProb pos neg (fun s => (predicted floor (row method s)).getD 1 0) ∧
      ∫ ω, (auc ω - rankProb pos neg (fun s => (predicted floor (row method s)).getD 1 0)) ^ 2 ∂P ≤ (1 / numLab lab true + 1 / numLab lab false) / 4 ∧
      ∀ ε > 0, P.real {ω | ε ≤ |auc ω - rankProb pos neg (fun s => (predicted floor (row method s)).getD 1 0)|} ≤
        (1 / numLab lab true + 1 / numLab lab false) / (4 * ε ^ 2) := by
  obtain ⟨w1, w2⟩ := rankShare_integral (g := fun s => (predicted floor (row method s)).getD 1 0) hd hg h1 h0
  refine ⟨fun ω => rankShare lab fun i => (predicted floor (row method (draw i ω))).getD 1 0, ?_,
    rankShare_measurable (g := fun s => (predicted floor (row method s)).getD 1 0) hd hg, w1, w2,
    rankShare_variance (g := fun s => (predicted floor (row method s)).getD 1 0) hd hg h1 h0,
    fun _ hε => rankShare_close (g := fun s => (predicted floor (row method s)).getD 1 0) hd hg h1 h0 hε⟩
  rintro ω cell ⟨full, dump, hf, hcell⟩
  exact bench_auc hn hk hc hname hloss (ht ω) h1 h0 hf hm hcell

/-- **C142, useless and perfect scores.**  If the scores of both populations have the same distribution the probability, and so the expected AUC, is one half;
if every positive case has a higher score than every negative case it is 1.  It is always between 0 and 1. -/
theorem C142_meaning {g : S → ℝ} (hg : Measurable g) :
    (0 ≤ rankProb pos neg g ∧ rankProb pos neg g ≤ 1) ∧ (pos.map g = neg.map g → rankProb pos neg g = 1 / 2) ∧
    ((∃ c, (∀ᵐ s ∂pos, c < g s) ∧ ∀ᵐ s ∂neg, g s ≤ c) → rankProb pos neg g = 1) := by
  refine ⟨?_, fun e => ?_, ?_⟩
  · rw [← integral_ordered hg]
    refine ⟨integral_nonneg fun p => (ordered_range _ _).1, ?_⟩
    have : ∫ p, ordered (g p.1) (g p.2) ∂(pos.prod neg) ≤ ∫ _, (1 : ℝ) ∂(pos.prod neg) := by
      refine integral_mono_of_nonneg (.of_forall fun p => (ordered_range _ _).1) (integrable_const _) (.of_forall fun p => (ordered_range _ _).2)
    simpa using this
  · have key : ∀ (μ ν : Measure S) [IsProbabilityMeasure μ] [IsProbabilityMeasure ν],
        rankProb μ ν g = ∫ p, ordered p.1 p.2 ∂((μ.map g).prod (ν.map g)) := by
      intro μ ν _ _
      rw [← integral_ordered hg, Measure.map_prod_map _ _ hg hg, integral_map (hg.prodMap hg).aemeasurable]
      · rfl
      · exact (ordered_measurable (g := fun x : ℝ => x) measurable_id).aestronglyMeasurable
    rw [key, e]
    have : IsProbabilityMeasure (neg.map g) := Measure.isProbabilityMeasure_map hg.aemeasurable
    generalize neg.map g = ν at *
    have hm := ordered_measurable (g := fun x : ℝ => x) measurable_id
    have hint : Integrable (fun p : ℝ × ℝ => ordered p.1 p.2) (ν.prod ν) :=
      Integrable.of_bound hm.aestronglyMeasurable 1 (.of_forall fun p => by
        rw [Real.norm_eq_abs, abs_of_nonneg (ordered_range _ _).1]; exact (ordered_range _ _).2)
    have hsw : ∫ p, ordered p.1 p.2 ∂(ν.prod ν) = ∫ p, ordered p.2 p.1 ∂(ν.prod ν) := by
      conv_lhs => rw [← Measure.prod_swap]
      rw [integral_map measurable_swap.aemeasurable hm.aestronglyMeasurable]
      rfl
    have hadd : ∫ p, ordered p.1 p.2 ∂(ν.prod ν) + ∫ p, ordered p.2 p.1 ∂(ν.prod ν) = 1 := by
      rw [← integral_add hint (show Integrable (fun p : ℝ × ℝ => ordered p.2 p.1) (ν.prod ν) from hint.swap)]
      have : ∀ p : ℝ × ℝ, ordered p.1 p.2 + ordered p.2 p.1 = 1 := by
        intro p
        unfold ordered
        rcases lt_trichotomy p.1 p.2 with h | h | h
        · simp [h, h.not_gt, h.ne]
        · simp [h]; norm_num
        · simp [h, h.not_gt, h.ne]
      simp [this]
    linarith
  · rintro ⟨c, ha, hb⟩
    rw [← integral_ordered hg]
    have h1 : ∀ᵐ p ∂(pos.prod neg), ordered (g p.1) (g p.2) = 1 := by
      have a := (Measure.quasiMeasurePreserving_fst (μ := pos) (ν := neg)).ae ha
      have b := (Measure.quasiMeasurePreserving_snd (μ := pos) (ν := neg)).ae hb
      filter_upwards [a, b] with p h1 h2
      unfold ordered
      rw [if_pos (lt_of_le_of_lt h2 h1)]
    rw [integral_congr_ae h1]
    simp

end Mlp.Props
