import Verif.Props.FullTable
import Verif.Lemmas.CurveReorder

/-! # Property C91 for classification: `just_benchmark` -/

namespace Mlp.Props
open Mlp.Util Mlp.Spec Mlp.Classif Mlp.Lemmas Mlp.Frame Mlp.Boot Mlp.Perf Mlp.Paper

variable {D : Type}

theorem classBench_ok_iff (T : Nat → RefDist) (other : Interp ℝ) (xTrain : Features D) (yTrain : LabelVec) (xTest : Features D)
    (yTest : LabelVec) (nLabels : Nat) (methods : List (Str × Classif.Estimator D)) (losses : List (Str × Metric))
    (curves : List (Str × CurveF ℝ)) (refMethod : Str) (floor : Flt ℝ) (pairwise : Bool) (methodEB : EBMethod)
    (limits : List (Str × (Flt ℝ × Flt ℝ))) (cd : BootDraws) (ld : Str → Str → Draws) (out : FullTable × CurveDump ℝ) :
    Classif.justBenchmark T other xTrain yTrain xTest yTest nLabels methods losses curves refMethod floor pairwise methodEB
        limits cd ld = .ok out ↔
      yTrain.kind = yTest.kind ∧ ∃ t, getPredLogProb xTrain yTrain xTest nLabels methods floor = .ok t ∧
        summaryTable T other t yTest losses curves refMethod none 1000 pairwise (.fin (95 / 100)) methodEB limits cd ld =
          .ok out := by
  unfold Classif.justBenchmark
  simp only [bind_ok_iff, exists_unit, pyAssert_eq_ok, decide_eq_true_eq]

/-- **C91, classification.**  A successful `just_benchmark` has one row for each method in sorted order; its metrics are the
given losses, sorted, then the given curves.  Training and test labels have the same kind, there is one test label for
each test point, and there are two labels.  The cells of losses and of curves are those of properties C51, C79 and C83 for a
table that holds what the methods predict: each row of predictions with entries below the floor replaced by the floor, minus
the logarithm of its total.  There are 1000 bootstrap replicates, confidence is 0.95 and the grid is the default one. -/
theorem C91_class {T : Nat → RefDist} {other : Interp ℝ} {xTrain : Features D} {yTrain : LabelVec} {xTest : Features D}
    {yTest : LabelVec} {nLabels : Nat} {methods : List (Str × Classif.Estimator D)} {losses : List (Str × Metric)}
    {curves : List (Str × CurveF ℝ)} {refMethod : Str} {floor : Flt ℝ} {pairwise : Bool} {methodEB : EBMethod}
    {limits : List (Str × (Flt ℝ × Flt ℝ))} {cd : BootDraws} {ld : Str → Str → Draws} {full : FullTable} {dump : CurveDump ℝ}
    (hn : (methods.map fun m => m.1).Nodup) (hk : (losses.map fun m => m.1).Nodup)
    (hrect : ∀ m ∈ methods, ∀ p, Predicts xTrain yTrain xTest m.2 p → Rect p)
    (h : Classif.justBenchmark T other xTrain yTrain xTest yTest nLabels methods losses curves refMethod floor pairwise
      methodEB limits cd ld = .ok (full, dump)) :
    yTrain.kind = yTest.kind ∧ nLabels = 2 ∧ refMethod ∈ full.methods ∧
    (full.methods.Perm (methods.map fun m => m.1) ∧ full.methods.Pairwise (· ≤ ·)) ∧
    ∃ t : PredTable ℝ, GoodData xTrain yTrain xTest nLabels floor t.nrows ∧ yTest.vals.length = t.nrows ∧
      (∀ m ∈ methods, ∃ p q, Predicts xTrain yTrain xTest m.2 p ∧ p.rows.length = t.nrows ∧ p.ncols = nLabels ∧
        IsMatrix t m.1 q ∧ List.Forall₂ (fun r r' => r'.length = r.length ∧ (Proper (r.map fun v => max floor v) →
          r' = shiftRow (Real.log ((r.map fun v => prob (max floor v)).sum)) (r.map fun v => max floor v))) p.rows q.rows) ∧
      ∃ lossNames lossCols curveCols, full.metrics = lossNames ++ curves.map (·.1) ∧ full.columns = lossCols ++ curveCols ∧
        (lossNames.Perm (losses.map fun m => m.1) ∧ lossNames.Pairwise (· ≤ ·)) ∧
        (∃ tbl : LossTable, tbl.nrows = t.nrows ∧ tbl.methods = full.methods ∧ tbl.metrics = lossNames ∧
          (∀ l ∈ losses, ∀ m ∈ methods, ∃ p q L, IsMatrix t m.1 p ∧ (∀ r ∈ p.rows, Flt.nan ∉ r) ∧
            NormalisedRows p q ∧ l.2 yTest q = .ok L ∧ L.length = t.nrows ∧ HasLoss tbl l.1 m.1 L) ∧
          List.Forall₂ (fun metric col => List.Forall₂ (fun method cell =>
            IsCell T tbl refMethod pairwise (.fin (95 / 100)) methodEB limits ld metric method cell) full.methods col)
            lossNames lossCols) ∧
        List.Forall₂ (fun curve col => List.Forall₂ (fun method cell => ∃ entry,
          ((method, curve.1), entry) ∈ dump ∧
          IsCurveCell other t yTest refMethod none 1000 pairwise (.fin (95 / 100)) cd method curve cell entry) full.methods col)
          curves curveCols := by
  obtain ⟨hkind, t, h1, h2⟩ := (classBench_ok_iff ..).1 h
  obtain ⟨hg, hlab, hp, hsort, hnod, hcols, hm⟩ := C81_table hn hrect h1
  have hM : t.methods.Nodup := hp.nodup_iff.2 hn
  obtain ⟨⟨a1, a2⟩, ln, lc, cc, b1, b2, b3, ⟨tbl, c1, c2, c3, c4, c5⟩, b5⟩ := C84_cells hk hM h2
  obtain ⟨ct, tbl', l, d1, -, -, -⟩ := (summary_ok_iff ..).1 h2
  obtain ⟨e1, e2, ⟨-, -, e3⟩, q, R, e4, e5, -⟩ := (curveSummary_ok_iff ..).1 d1
  refine ⟨hkind, ?_, (a1.mem_iff).2 e2, ⟨a1.trans hp, a2⟩, t, hg, e1, ?_, ln, lc, cc, b1, b2, b3,
    ⟨tbl, c1, c2, c3, fun lo hlo m hm' => c4 lo hlo m.1 (hp.mem_iff.2 (List.mem_map_of_mem hm')), c5⟩, b5⟩
  · -- a curve needs two labels
    obtain ⟨c, cs, hcs⟩ := List.exists_cons_of_ne_nil (l := curves) (by rintro rfl; simp at e3)
    obtain ⟨r, -, hr⟩ := forall₂_mem e5 e2
    obtain ⟨p, hp', hr⟩ := (curveMethod_ok_iff ..).1 hr
    obtain ⟨o, -, B, hB, -⟩ := forall₂_mem hr (show c ∈ curves by simp [hcs])
    unfold curveBoot at hB
    simp only [bind_ok_iff, exists_unit, pyAssert_eq_ok, decide_eq_true_eq] at hB
    obtain ⟨s, hs, hs2, -⟩ := hB
    rw [shapeAndValidate_fst hs] at hs2
    have := (matrix_isMatrix hp').1
    rw [hlab, List.length_map, List.length_range] at this
    simp only at hs2
    omega
  · intro m hm'
    obtain ⟨p, q, x1, x2, x3, -, x4, x5⟩ := hm m hm'
    exact ⟨p, q, x1, x2, x3, x4, x5⟩

/-- **C91, classification, success.**  With two labels, the standard losses, the standard curves and no pairwise error bars
`just_benchmark` succeeds if the data have the right shapes, the test labels are 0 or 1, and each method
predicts a matrix of the right shape whose entries, after flooring, are numbers. -/
theorem C91_class_standard {T : Nat → RefDist} (other : Interp ℝ) {xTrain : Features D} {yTrain : LabelVec} {xTest : Features D}
    {yTest : LabelVec} {methods : List (Str × Classif.Estimator D)} {refMethod : Str} {floor : Flt ℝ} {methodEB : EBMethod}
    {cd : BootDraws} {ld : Str → Str → Draws} {nTest : Nat}
    (hn : (methods.map fun m => m.1).Nodup) (href : refMethod ∈ (methods.map fun m => m.1))
    (hg : GoodData xTrain yTrain xTest 2 floor nTest) (hkind : yTrain.kind = yTest.kind) (hy : yTest.vals.length = nTest)
    (hr : ∀ v ∈ yTest.vals, v = 0 ∨ v = 1)
    (hp : ∀ m ∈ methods, ∃ p, Predicts xTrain yTrain xTest m.2 p ∧ p.rows.length = nTest ∧ p.ncols = 2 ∧
      ∀ r ∈ p.rows, r.length = 2 ∧ ∀ v ∈ r, (max floor v).isFinite = true)
    (hd : ∀ m c, (cd m c).length = 1000 ∧ ∀ row ∈ cd m c, row.length = nTest)
    (hm : methodEB ≠ .other) (hT : 2 ≤ nTest → IsSymmetric (T (nTest - 1)))
    (hld : methodEB = .boot → ∀ metric method, ValidDraws nTest 1000 (ld metric method).eb ∧
      ValidDraws nTest 1000 (ld metric method).test) :
    ∃ out, Classif.justBenchmark T other xTrain yTrain xTest yTest 2 methods stdClassLoss stdBinaryCurves refMethod floor
      false methodEB [] cd ld = .ok out := by
  obtain ⟨t, ht⟩ := C81_success (methods := methods) hg fun m hm' => by
    obtain ⟨p, a, b, c, -⟩ := hp m hm'
    exact ⟨p, a, b, c⟩
  have huniq : ∀ m ∈ methods, ∀ p, Predicts xTrain yTrain xTest m.2 p → p.rows.length = nTest ∧ p.ncols = 2 ∧
      ∀ r ∈ p.rows, r.length = 2 ∧ ∀ v ∈ r, (max floor v).isFinite = true := by
    intro m hm' p hpp
    obtain ⟨p', a, b⟩ := hp m hm'
    have := (trainPredict_ok_iff ..).2 a
    rw [(trainPredict_ok_iff ..).2 hpp, Except.ok.injEq] at this
    rw [this]; exact b
  obtain ⟨hg', hlab, hperm, hsort, hnod, hcols, hmeth⟩ := C81_table hn (fun m hm' p hpp r hr' => by
    rw [((huniq m hm' p hpp).2.2 r hr').1, (huniq m hm' p hpp).2.1]) ht
  have hrows : t.nrows = nTest := by
    obtain ⟨_, _, a, -⟩ := hg.test
    obtain ⟨_, _, b, -⟩ := hg'.test
    rw [a, List.cons.injEq] at b
    exact b.1.symm
  have hfb : FiniteBinary t := by
    refine ⟨by rw [hrows]; exact hg.pos, by rw [hlab]; simp, ?_, ?_, fun c hc => (hcols c hc).2.2, ?_⟩
    · intro e
      rw [← hperm.mem_iff, e] at href
      simp at href
    · intro method hmm
      obtain ⟨m, hm', rfl⟩ := List.mem_map.1 (hperm.mem_iff.1 hmm)
      obtain ⟨_, _, -, -, -, h, -⟩ := hmeth m hm'
      exact h
    · intro c hc v hv
      obtain ⟨c1, c2, c3⟩ := hcols c hc
      obtain ⟨m, hm', e⟩ := List.mem_map.1 (hperm.mem_iff.1 c1)
      obtain ⟨p, q, x1, x2, -, -, x4, x5⟩ := hmeth m hm'
      have hl2 : t.labels.length = 2 := by rw [hlab]; simp
      rw [hlab] at c2
      obtain ⟨k, hk, hk'⟩ := List.mem_map.1 c2
      have hk2 : k < 2 := by simpa using hk
      obtain ⟨col, y1, y2⟩ := x4.2.2.2 k (by rw [hl2]; exact hk2)
      have hcol : HasCol t.cols c.1 c.2 := hasCol_of_mem hnod (by simpa using hc)
      have ek : c.1 = (m.1, (k : Int)) := Prod.ext e.symm hk'.symm
      rw [ek] at hcol
      obtain rfl := hasCol_unique hcol y1
      obtain ⟨i, hi, rfl⟩ := List.getElem_of_mem hv
      have hiq : i < q.rows.length := by rw [x4.2.1, ← c3]; exact hi
      have hip : i < p.rows.length := by rw [x5.length_eq]; exact hiq
      have y3 := y2 i _ (List.getElem?_eq_getElem hiq)
      obtain ⟨-, z⟩ := (List.forall₂_iff_get.1 x5).2 i hip hiq
      simp only [List.get_eq_getElem] at z
      obtain ⟨w1, w2⟩ := (huniq m hm' p x1).2.2 _ (List.getElem_mem hip)
      have hprop : Proper (p.rows[i].map fun v => max floor v) := by
        refine ⟨fun v hv => ?_, ?_⟩
        · obtain ⟨u, hu, rfl⟩ := List.mem_map.1 hv
          have := w2 u hu
          revert this
          cases max floor u <;> simp [Flt.isFinite]
        · have h0 : 0 < p.rows[i].length := by omega
          have := w2 _ (List.getElem_mem h0)
          obtain ⟨x, hx⟩ : ∃ x, max floor p.rows[i][0] = Flt.fin x := by
            revert this
            cases max floor p.rows[i][0] <;> simp [Flt.isFinite]
          exact ⟨x, List.mem_map.2 ⟨_, List.getElem_mem h0, hx⟩⟩
      rw [z hprop] at y3
      have hd' : c.2.getD i .nan = c.2[i] := by simp [hi]
      rw [hd'] at y3
      have hmem := List.mem_of_getElem? y3
      obtain ⟨u, hu, hu'⟩ := List.mem_map.1 hmem
      obtain ⟨u', hu2, rfl⟩ := List.mem_map.1 hu
      have := w2 u' hu2
      rw [← hu']
      revert this
      cases max floor u' <;> simp [Flt.isFinite, Flt.sub, Flt.add, Flt.neg]
  obtain ⟨out, hout⟩ := C84_success_std (T := T) other hfb (hperm.nodup_iff.2 hn) (y := yTest) (by rw [hy, hrows])
    (by rw [← hkind]; exact hg.kind) hr (hperm.mem_iff.2 href) (n := 1000) (by norm_num) (cd := cd)
    (by rw [hrows]; exact hd) (conf := 95 / 100) (by norm_num) (by norm_num) hm (ld := ld) (by rw [hrows]; exact hT)
    (by rw [hrows]; exact hld)
  exact ⟨out, (classBench_ok_iff ..).2 ⟨hkind, t, ht, by exact_mod_cast hout⟩⟩

/-- **C91, classification, rejections.**  Labels of different kinds raise an AssertionError.  An unknown reference method,
a wrong number of test labels, or no curves give no table. -/
theorem C91_class_reject (T : Nat → RefDist) (other : Interp ℝ) {xTrain : Features D} {yTrain : LabelVec} {xTest : Features D}
    {yTest : LabelVec} (nLabels : Nat) {methods : List (Str × Classif.Estimator D)} (losses : List (Str × Metric))
    {curves : List (Str × CurveF ℝ)} {refMethod : Str} (floor : Flt ℝ) (pairwise : Bool) (methodEB : EBMethod)
    (limits : List (Str × (Flt ℝ × Flt ℝ))) (cd : BootDraws) (ld : Str → Str → Draws) :
    (yTrain.kind ≠ yTest.kind → Classif.justBenchmark T other xTrain yTrain xTest yTest nLabels methods losses curves
      refMethod floor pairwise methodEB limits cd ld = .error .assertion) ∧
    (xTest.shape.head? ≠ some yTest.vals.length ∨ refMethod ∉ (methods.map fun m => m.1) ∨ curves = [] → ∀ out,
      Classif.justBenchmark T other xTrain yTrain xTest yTest nLabels methods losses curves
        refMethod floor pairwise methodEB limits cd ld ≠ .ok out) := by
  constructor
  · intro hd
    unfold Classif.justBenchmark
    rw [pyAssert_bind, if_neg (by simpa using hd)]
  · intro hr out h
    obtain ⟨-, t, h1, h2⟩ := (classBench_ok_iff ..).1 h
    obtain ⟨n, hg, qs, -, rfl⟩ := (getPredLogProb_ok_iff ..).1 h1
    rw [C84_reject] at h2
    · simp at h2
    · rcases hr with hr | hr | hr
      · left
        obtain ⟨_, _, e, -⟩ := hg.test
        rw [e] at hr
        simpa using Ne.symm hr
      · exact Or.inr (Or.inl fun hh => hr ((sortLevel_perm _).mem_iff.1 hh))
      · exact Or.inr (Or.inr (Or.inr (Or.inr hr)))

/-! ### The order of the test points -/

theorem pick_reorder {σ : List Nat} {p : Mat ℝ} {y : List Int} (hσ : IsPerm σ p.rows.length)
    (hy : y.length = p.rows.length) {v : List (Flt ℝ)} (h : Classif.pick p y = .ok v) :
    Classif.pick (reorderMat σ p) (reorder σ y) = .ok (reorder σ v) := by
  unfold Classif.pick at *
  have : List.zip (reorderMat σ p).rows (reorder σ y) = reorder σ (List.zip p.rows y) := by
    unfold List.zip
    rw [reorder_zipWith _ (perm_lt hσ) (by rw [hy]; exact perm_lt hσ)]
    rfl
  rw [this]
  exact mapM_reorder h (by rw [List.length_zip, hy, Nat.min_self]; exact perm_lt hσ)

/-- **C91.**  The log loss is a loss of each sample on its own. -/
theorem C91_sym_logLoss : SymMetric Classif.logLoss := by
  intro σ y p L hp hy hσ hL h
  unfold Classif.logLoss at *
  rw [shapeAndValidate_class_reorder hσ hy]
  simp only [bind_ok_iff, pure_eq_ok, Except.ok.injEq] at h ⊢
  obtain ⟨s, h1, v, h2, rfl⟩ := h
  exact ⟨s, h1, _, pick_reorder hσ hy h2, by rw [reorder_map]⟩

theorem oneHot_reorder {σ : List Nat} {y : LabelVec} (hσ : IsPerm σ y.vals.length) {n : Int} {b : List (List Bool)}
    (h : oneHot y n = .ok b) : oneHot (reorderLabels σ y) n = .ok (reorder σ b) := by
  have hpy : (reorder σ y.vals).Perm y.vals := reorder_perm hσ
  unfold oneHot reorderLabels at *
  simp only [all_perm hpy, hpy.length_eq, bind_ok_iff, pure_eq_ok, Except.ok.injEq] at h ⊢
  obtain ⟨u, h1, v, h2, w, h3, rfl⟩ := h
  refine ⟨u, h1, v, h2, w, h3, ?_⟩
  rw [reorder_zipWith _ (by simpa using perm_lt hσ) (perm_lt hσ), reorder_replicate hσ]

/-- **C91.**  The Brier loss is a loss of each sample on its own. -/
theorem C91_sym_brierLoss (rescale : Bool) : SymMetric (brierLoss rescale) := by
  intro σ y p L hp hy hσ hL h
  unfold brierLoss at *
  rw [shapeAndValidate_class_reorder hσ hy]
  rw [bind_ok_iff] at h ⊢
  obtain ⟨s, h1, h⟩ := h
  refine ⟨s, h1, ?_⟩
  rw [bind_ok_iff] at h ⊢
  obtain ⟨b, h2, h⟩ := h
  refine ⟨reorder σ b, oneHot_reorder (y := asInt y) (by unfold asInt; rw [hy]; exact hσ) h2, ?_⟩
  have hb : b.length = p.rows.length := by
    unfold oneHot at h2
    simp only [bind_ok_iff, pure_eq_ok, Except.ok.injEq] at h2
    obtain ⟨-, -, -, -, -, -, rfl⟩ := h2
    simp [asInt, hy]
  have he : ∀ g : List (Flt ℝ) → List Bool → Flt ℝ, List.zipWith g (reorderMat σ p).rows (reorder σ b) =
      reorder σ (List.zipWith g p.rows b) := by
    intro g
    rw [reorder_zipWith _ (perm_lt hσ) (by rw [hb]; exact perm_lt hσ)]
    rfl
  rw [he]
  split at h
  · rename_i hc
    rw [if_pos hc]
    rw [pure_eq_ok, Except.ok.injEq] at h ⊢
    rw [← h, reorder_map]
  · rename_i hc
    rw [if_neg hc]
    rw [pure_eq_ok, Except.ok.injEq] at h ⊢
    rw [← h]

/-- **C91.**  The spherical loss is a loss of each sample on its own. -/
theorem C91_sym_sphericalLoss (rescale : Bool) : SymMetric (sphericalLoss rescale) := by
  intro σ y p L hp hy hσ hL h
  unfold sphericalLoss at *
  rw [shapeAndValidate_class_reorder hσ hy]
  rw [bind_ok_iff] at h ⊢
  obtain ⟨s, h1, h⟩ := h
  refine ⟨s, h1, ?_⟩
  rw [bind_ok_iff] at h ⊢
  obtain ⟨v, h2, h⟩ := h
  refine ⟨reorder σ v, pick_reorder hσ hy h2, ?_⟩
  have hv : v.length = p.rows.length := by
    unfold Classif.pick at h2
    have := ((mapM_ok_iff ..).1 h2).length_eq
    rw [← this, List.length_zip, hy, Nat.min_self]
  have he : ∀ (g : Flt ℝ → Flt ℝ → Flt ℝ) (k : List (Flt ℝ) → Flt ℝ),
      List.zipWith g (reorder σ v) ((reorderMat σ p).rows.map k) = reorder σ (List.zipWith g v (p.rows.map k)) := by
    intro g k
    rw [reorder_zipWith _ (by rw [hv]; exact perm_lt hσ) (by rw [List.length_map]; exact perm_lt hσ), reorder_map]
    rfl
  rw [he]
  split at h
  · rename_i hc
    rw [if_pos hc]
    rw [pure_eq_ok, Except.ok.injEq] at h ⊢
    rw [← h, reorder_map]
  · rename_i hc
    rw [if_neg hc]
    rw [pure_eq_ok, Except.ok.injEq] at h ⊢
    rw [← h]

/-- **C91.**  The loss of the best action is a loss of each sample on its own, for every loss matrix. -/
theorem C91_sym_hardLoss (lossMat : Option (Mat ℝ)) : SymMetric (hardLoss lossMat) := by
  intro σ y p L hp hy hσ hL h
  unfold hardLoss at *
  rw [shapeAndValidate_class_reorder hσ hy]
  rw [bind_ok_iff] at h ⊢
  obtain ⟨s, h1, h⟩ := h
  refine ⟨s, h1, ?_⟩
  dsimp only at h ⊢
  generalize lossMat.getD (zeroOneMat s.2) = M at h ⊢
  rw [bind_ok_iff] at h ⊢
  obtain ⟨u, h2, h⟩ := h
  refine ⟨u, h2, ?_⟩
  rw [bind_ok_iff] at h ⊢
  obtain ⟨u, h3, h⟩ := h
  refine ⟨u, h3, ?_⟩
  rw [bind_ok_iff] at h ⊢
  obtain ⟨a, h4, h⟩ := h
  have h4' : hardLossDecision (reorderMat σ p) M = .ok (reorder σ a) ∧ a.length = p.rows.length := by
    unfold hardLossDecision dot expMat argminRows at *
    rw [bind_ok_iff] at h4
    obtain ⟨e, h5, h6⟩ := h4
    simp only at h5
    split at h5
    · rename_i hc
      rw [Except.ok.injEq] at h5
      subst h5
      simp only at h6
      split at h6
      · cases h6
      rename_i hz
      have hl := ((mapM_ok_iff ..).1 h6).length_eq
      simp only [List.length_map] at hl
      refine ⟨?_, hl.symm⟩
      simp only [reorderMat, hc, if_true, ok_bind, hz, if_false]
      have := mapM_reorder h6 (σ := σ) (by simpa using perm_lt hσ)
      rw [reorder_map, reorder_map] at this
      exact this
    · cases h5
  refine ⟨_, h4'.1, ?_⟩
  have : List.zip (reorderLabels σ y).vals (reorder σ a) = reorder σ (List.zip y.vals a) := by
    unfold List.zip
    rw [reorder_zipWith _ (by rw [hy]; exact perm_lt hσ) (by rw [h4'.2]; exact perm_lt hσ)]
    rfl
  rw [this]
  exact mapM_reorder h (by rw [List.length_zip, hy, h4'.2, Nat.min_self]; exact perm_lt hσ)

/-- **C91.**  The standard losses are losses of each sample on its own, and for the standard curves the order of the samples
does not matter. -/
theorem C91_sym_class : (∀ l ∈ stdClassLoss, SymMetric l.2) ∧ ∀ c ∈ stdBinaryCurves, SymCurve c.2 := by
  constructor
  · unfold stdClassLoss
    simp only [List.mem_cons, List.not_mem_nil, or_false, forall_eq_or_imp, forall_eq]
    exact ⟨C91_sym_logLoss, C91_sym_brierLoss _, C91_sym_sphericalLoss _, C91_sym_hardLoss _⟩
  · unfold stdBinaryCurves
    simp only [List.mem_cons, List.not_mem_nil, or_false, forall_eq_or_imp, forall_eq]
    exact ⟨fun σ y s M h1 h2 h3 => (C65_curves h1 h2 h3).1, fun σ y s M h1 h2 h3 => (C65_curves h1 h2 h3).2.1,
      fun σ y s M h1 h2 h3 => (C65_curves h1 h2 h3).2.2⟩

/-- **C91, classification, order of the test points.**  With such losses and curves the order of the test points does not
matter: if the points, their labels and the bootstrap draws are put in another order, the table and the curves
are the same. -/
theorem C91_class_order {T : Nat → RefDist} {other : Interp ℝ} {xTrain : Features D} {yTrain : LabelVec}
    {xTest xTest' : Features D} {yTest : LabelVec} {nLabels : Nat} {methods : List (Str × Classif.Estimator D)}
    {losses : List (Str × Metric)} {curves : List (Str × CurveF ℝ)} {refMethod : Str} {floor : Flt ℝ} {pairwise : Bool}
    {methodEB : EBMethod} {limits : List (Str × (Flt ℝ × Flt ℝ))} {cd cd' : BootDraws} {ld ld' : Str → Str → Draws}
    {out : FullTable × CurveDump ℝ} {σ : List Nat} (hn : (methods.map fun m => m.1).Nodup)
    (hrect : ∀ m ∈ methods, ∀ p, Predicts xTrain yTrain xTest m.2 p → Rect p)
    (hl : ∀ l ∈ losses, SymMetric l.2) (hc : ∀ c ∈ curves, SymCurve c.2)
    (hσ : IsPerm σ yTest.vals.length) (hs : SamePreds σ xTrain yTrain xTest xTest' methods)
    (hcd : ∀ m c, cd' m c = (cd m c).map (reorder σ) ∧ ∀ r ∈ cd m c, r.length = yTest.vals.length)
    (hld : methodEB = .boot → ∀ metric method, ld' metric method = reorderDraws σ (ld metric method) ∧
      (∀ row ∈ (ld metric method).eb, row.length = yTest.vals.length) ∧
      ∀ row ∈ (ld metric method).test, row.length = yTest.vals.length)
    (h : Classif.justBenchmark T other xTrain yTrain xTest yTest nLabels methods losses curves refMethod floor pairwise
      methodEB limits cd ld = .ok out) :
    Classif.justBenchmark T other xTrain yTrain xTest' (reorderLabels σ yTest) nLabels methods losses curves refMethod floor
      pairwise methodEB limits cd' ld' = .ok out := by
  obtain ⟨hkind, t, h1, h2⟩ := (classBench_ok_iff ..).1 h
  obtain ⟨-, -, -, -, -, hcols, -⟩ := C81_table hn hrect h1
  obtain ⟨full, dump⟩ := out
  obtain ⟨ct, tbl, l, a1, a2, a3, rfl⟩ := (summary_ok_iff ..).1 h2
  have hlen : yTest.vals.length = t.nrows := ((curveSummary_ok_iff ..).1 a1).1
  rw [hlen] at hσ hcd hld
  have hcl : ∀ c ∈ t.cols, c.2.length = t.nrows := fun c hc => (hcols c hc).2.2
  obtain ⟨e1, e2⟩ := classTable_lengths a2
  refine (classBench_ok_iff ..).2 ⟨hkind, _, predLogProb_reorder hs h1 hσ, (summary_ok_iff ..).2
    ⟨ct, _, l, curveSummary_reorder hσ hcl hc hcd a1, classTable_reorder hσ hcl hl a2, ?_, rfl⟩⟩
  rw [C53_row_order T e2 (by rw [e1]; exact hσ) refMethod pairwise _ methodEB limits ld ld'
    (by rw [e1]; exact hld), a3]

/-! ### Examples -/

/-- A classifier whose log-odds of label 1 are the only feature. -/
noncomputable def logit : Classif.Estimator (List ℝ) := fun _ _ =>
  .ok ⟨fun x => .ok ⟨2, x.data.map fun v => [.fin 0, .fin v]⟩, fun _ => .error .typeError⟩

/-- A classifier that knows nothing. -/
noncomputable def coin : Classif.Estimator (List ℝ) := fun _ _ =>
  .ok ⟨fun x => .ok ⟨2, x.data.map fun _ => [.fin 0, .fin 0]⟩, fun _ => .error .typeError⟩

noncomputable def logitTrain : Features (List ℝ) := ⟨[1, 1], 'f', [0]⟩
noncomputable def logitTest (l : List ℝ) : Features (List ℝ) := ⟨[3, 1], 'f', l⟩

theorem logit_predicts (l : List ℝ) : Predicts logitTrain ⟨'i', [1]⟩ (logitTest l) logit
    ⟨2, l.map fun v => [.fin 0, .fin v]⟩ := ⟨_, rfl, Or.inl rfl⟩

theorem coin_predicts (l : List ℝ) : Predicts logitTrain ⟨'i', [1]⟩ (logitTest l) coin
    ⟨2, l.map fun _ => [.fin 0, .fin 0]⟩ := ⟨_, rfl, Or.inl rfl⟩

theorem logit_unique {l : List ℝ} {m : Str × Classif.Estimator (List ℝ)} (hm : m ∈ [("logit".toList, logit), ("coin".toList, coin)])
    {p : Mat ℝ} (hp : Predicts logitTrain ⟨'i', [1]⟩ (logitTest l) m.2 p) :
    m.2 = logit ∧ p = ⟨2, l.map fun v => [.fin 0, .fin v]⟩ ∨ m.2 = coin ∧ p = ⟨2, l.map fun _ => [.fin 0, .fin 0]⟩ := by
  have h := (trainPredict_ok_iff ..).2 hp
  simp only [List.mem_cons, List.not_mem_nil, or_false] at hm
  rcases hm with rfl | rfl
  · rw [(trainPredict_ok_iff ..).2 (logit_predicts l), Except.ok.injEq] at h
    exact Or.inl ⟨rfl, h.symm⟩
  · rw [(trainPredict_ok_iff ..).2 (coin_predicts l), Except.ok.injEq] at h
    exact Or.inr ⟨rfl, h.symm⟩

theorem logit_ok (T : Nat → RefDist) (hT : IsSymmetric (T 2)) (other : Interp ℝ) (ld : Str → Str → Draws) :
    ∃ out, Classif.justBenchmark T other logitTrain ⟨'i', [1]⟩ (logitTest [3, -1, 2]) ⟨'i', [1, 0, 0]⟩ 2
      [("logit".toList, logit), ("coin".toList, coin)] stdClassLoss stdBinaryCurves "coin".toList .ninf false .t []
      (fun _ _ => List.replicate 1000 [0, 2, 1]) ld = .ok out := by
  refine C91_class_standard other (by simp only [List.map_cons, List.map_nil]; decide) (by simp) (nTest := 3)
    ⟨⟨1, [], rfl, [], rfl, rfl⟩, by norm_num, Or.inr rfl, by simp, by simp, rfl, ninf_lt_fin 0⟩ rfl rfl (by simp) ?_
    (fun _ _ => ⟨by rw [List.length_replicate], fun row hr => by rw [List.eq_of_mem_replicate hr]; rfl⟩) (by simp) (fun _ => hT) (by simp)
  intro m hm
  simp only [List.mem_cons, List.not_mem_nil, or_false] at hm
  rcases hm with rfl | rfl
  · exact ⟨_, logit_predicts _, rfl, rfl, by simp [max_eq_right (Flt.ninf_le _), Flt.isFinite]⟩
  · exact ⟨_, coin_predicts _, rfl, rfl, by simp [max_eq_right (Flt.ninf_le _), Flt.isFinite]⟩

/-- The table of the example has the rows `coin` and `logit` and seven metrics; with the test points in another order it is
the same. -/
example (T : Nat → RefDist) (hT : IsSymmetric (T 2)) (other : Interp ℝ) (ld ld' : Str → Str → Draws) :
    ∃ full dump, Classif.justBenchmark T other logitTrain ⟨'i', [1]⟩ (logitTest [3, -1, 2]) ⟨'i', [1, 0, 0]⟩ 2
        [("logit".toList, logit), ("coin".toList, coin)] stdClassLoss stdBinaryCurves "coin".toList .ninf false .t []
        (fun _ _ => List.replicate 1000 [0, 2, 1]) ld = .ok (full, dump) ∧
      full.methods = ["coin".toList, "logit".toList] ∧ full.metrics.length = 7 ∧
      Classif.justBenchmark T other logitTrain ⟨'i', [1]⟩ (logitTest [2, 3, -1]) ⟨'i', [0, 1, 0]⟩ 2
        [("logit".toList, logit), ("coin".toList, coin)] stdClassLoss stdBinaryCurves "coin".toList .ninf false .t []
        (fun _ _ => List.replicate 1000 [1, 0, 2]) ld' = .ok (full, dump) := by
  obtain ⟨⟨full, dump⟩, h⟩ := logit_ok T hT other ld
  have hn : (([("logit".toList, logit), ("coin".toList, coin)] : List (Str × Classif.Estimator (List ℝ))).map
      fun m => m.1).Nodup := by
    simp only [List.map_cons, List.map_nil]; decide
  have hrect : ∀ m ∈ [("logit".toList, logit), ("coin".toList, coin)], ∀ p,
      Predicts logitTrain ⟨'i', [1]⟩ (logitTest [3, -1, 2]) m.2 p → Rect p := by
    intro m hm p hp
    rcases logit_unique hm hp with ⟨-, rfl⟩ | ⟨-, rfl⟩ <;> simp [Rect]
  obtain ⟨-, -, -, hm, t, -, -, -, ln, lc, cc, e1, -, e2, -⟩ := C91_class hn (by decide) hrect h
  refine ⟨full, dump, h, ?_, by rw [e1, List.length_append, e2.1.length_eq]; rfl, ?_⟩
  · refine List.Perm.eq_of_pairwise (le := fun a b : Str => a ≤ b) (fun a b _ _ h1 h2 => List.le_antisymm h1 h2) hm.2
      (by decide) (hm.1.trans ?_)
    simp only [List.map_cons, List.map_nil]
    decide
  · have := C91_class_order (xTest' := logitTest [2, 3, -1]) (σ := [2, 0, 1]) (ld' := ld')
      (cd' := fun _ _ => List.replicate 1000 [1, 0, 2]) hn hrect C91_sym_class.1 C91_sym_class.2 (by unfold IsPerm; decide)
      ⟨rfl, rfl, by
        intro m hm p hp
        rcases logit_unique hm hp with ⟨e, rfl⟩ | ⟨e, rfl⟩
        · rw [e]
          exact logit_predicts [2, 3, -1]
        · rw [e]
          exact coin_predicts [2, 3, -1]⟩
      (fun _ _ => ⟨by rw [List.map_replicate]; rfl, fun row hr => by rw [List.eq_of_mem_replicate hr]; rfl⟩) (by simp) h
    exact this

/-- With three labels there is no table. -/
example (T : Nat → RefDist) (other : Interp ℝ) (cd : BootDraws) (ld : Str → Str → Draws) (out : FullTable × CurveDump ℝ) :
    Classif.justBenchmark T other logitTrain ⟨'i', [1]⟩ (logitTest [3, -1, 2]) ⟨'i', [1, 0, 0]⟩ 3
      [("logit".toList, logit), ("coin".toList, coin)] stdClassLoss stdBinaryCurves "coin".toList .ninf false .t []
      cd ld ≠ .ok out := by
  intro h
  obtain ⟨full, dump⟩ := out
  have := (C91_class (by simp only [List.map_cons, List.map_nil]; decide) (by decide) (by
    intro m hm p hp
    rcases logit_unique hm hp with ⟨-, rfl⟩ | ⟨-, rfl⟩ <;> simp [Rect]) h).2.1
  norm_num at this

end Mlp.Props
