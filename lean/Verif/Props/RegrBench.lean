import Verif.Props.RegrPred
import Verif.Lemmas.Reorder

/-! # Property C91 for regression: `just_benchmark` -/

namespace Mlp.Props
open Mlp.Util Mlp.Spec Mlp.Regr Mlp.Lemmas Mlp.Frame
open Mlp.Classif (Features shapeAt FullTable)
open Mlp.Paper (RefDist EBMethod Draws LossTable lossSummaryTable defaultConfidence defaultNBoot)

variable {D : Type}

theorem regrBench_ok_iff (T : Nat → RefDist) (d d' : Str) (xTrain : Features D) (yTrain : Arr) (xTest : Features D)
    (yTest : Arr) (methods : List (Str × Regr.Estimator D)) (losses : List (Str × Loss)) (refMethod : Str) (minStd : Flt ℝ)
    (pairwise : Bool) (methodEB : EBMethod) (limits : List (Str × (Flt ℝ × Flt ℝ))) (draws : Str → Str → Draws)
    (full : FullTable) :
    Regr.justBenchmark T d d' xTrain yTrain xTest yTest methods losses refMethod minStd pairwise methodEB limits draws =
        .ok full ↔
      d = d' ∧ ∃ t, getGaussPred xTrain yTrain xTest methods minStd = .ok t ∧ ∃ tbl, Regr.lossTable t yTest losses = .ok tbl ∧
        ∃ l, lossSummaryTable T tbl refMethod pairwise (.fin (95 / 100)) methodEB limits draws = .ok l ∧
          full = ⟨tbl.metrics, tbl.methods, l⟩ := by
  unfold Regr.justBenchmark
  rw [show (defaultConfidence : Flt ℝ) = .fin (95 / 100) from rfl]
  simp only [bind_ok_iff, exists_unit, pyAssert_eq_ok, decide_eq_true_eq, pure_eq_ok, Except.ok.injEq, eq_comm (a := full)]

/-- **C91, regression.**  A successful `just_benchmark` has one row for each method and the metrics of the given losses, both in
sorted order.  The cells are those of `loss_summary_table` (property C51) for the losses of the predictions:
for each method and loss the loss function is applied to the test targets, the predicted means and the predicted
standard deviations, where those below `min_std` are replaced by it. -/
theorem C91_regr {T : Nat → RefDist} {d d' : Str} {xTrain : Features D} {yTrain : Arr} {xTest : Features D}
    {yTest : Arr} {methods : List (Str × Regr.Estimator D)} {losses : List (Str × Loss)} {refMethod : Str} {minStd : Flt ℝ}
    {pairwise : Bool} {methodEB : EBMethod} {limits : List (Str × (Flt ℝ × Flt ℝ))} {draws : Str → Str → Draws}
    {full : FullTable} (hn : (methods.map fun m => m.1).Nodup) (hk : (losses.map fun m => m.1).Nodup)
    (h : Regr.justBenchmark T d d' xTrain yTrain xTest yTest methods losses refMethod minStd pairwise methodEB limits
      draws = .ok full) :
    d = d' ∧ refMethod ∈ full.methods ∧
    (full.methods.Perm (methods.map fun m => m.1) ∧ full.methods.Pairwise (· ≤ ·)) ∧
    (full.metrics.Perm (losses.map fun m => m.1) ∧ full.metrics.Pairwise (· ≤ ·)) ∧
    ∃ nTest, GoodRegr xTrain yTrain xTest minStd nTest ∧ yTest.shape = [nTest] ∧
    ∃ tbl : LossTable, tbl.nrows = nTest ∧ tbl.metrics = full.metrics ∧ tbl.methods = full.methods ∧
      (∀ m ∈ methods, ∀ l ∈ losses, ∃ mu std sd L, PredictsGauss xTrain yTrain xTest m.2 mu std ∧
        mu.shape = [nTest] ∧ std.shape = [nTest] ∧
        List.Forall₂ (fun own s => minStd ≤ s ∧ (minStd ≤ own → s = own) ∧ (own < minStd → s = minStd)) std.data sd ∧
        l.2 yTest mu ⟨[nTest], sd⟩ = .ok L ∧ L.length = nTest ∧ HasLoss tbl l.1 m.1 L) ∧
      List.Forall₂ (fun metric col => List.Forall₂ (fun method cell =>
        IsCell T tbl refMethod pairwise (.fin (95 / 100)) methodEB limits draws metric method cell) full.methods col)
        full.metrics full.columns := by
  obtain ⟨hd, t, h1, tbl, h2, l, h3, rfl⟩ := (regrBench_ok_iff ..).1 h
  obtain ⟨hg, -, hp, -, hnod, hcols, hm⟩ := C88_table hn h1
  have hM : t.methods.Nodup := (hp.nodup_iff).2 hn
  obtain ⟨e1, e2, e3, e4, -, -, -, e8⟩ := C89_columns hk hM hnod h2
  have href : refMethod ∈ tbl.methods := (summary_ok.1 h3).1
  refine ⟨hd, href, ⟨e4.1.trans hp, e4.2⟩, e3, t.nrows, hg, e2, tbl, e1, rfl, rfl, ?_, C51_cells h3⟩
  intro m hm' lo hlo
  obtain ⟨mu, std, sd, a1, a2, a3, a4, a5, a6⟩ := hm m hm'
  obtain ⟨mu', sd', L, b1, b2, b3, b4, b5⟩ := e8 lo hlo m.1 ((hp.mem_iff).2 (List.mem_map_of_mem hm'))
  obtain rfl := hasCol_unique a4 b1
  obtain rfl := hasCol_unique a5 b2
  have : mu = ⟨[t.nrows], mu.data⟩ := by cases mu; simp only at a2; rw [a2]
  exact ⟨mu, std, sd, L, a1, a2, a3, a6, by rw [this]; exact b3, b4, b5⟩

/-- **C91, regression, rejections.**  Targets with different dtypes raise an AssertionError.  An unknown reference method
or no loss functions give no table. -/
theorem C91_regr_reject (T : Nat → RefDist) {d d' : Str} (xTrain : Features D) (yTrain : Arr) (xTest : Features D)
    (yTest : Arr) (methods : List (Str × Regr.Estimator D)) (losses : List (Str × Loss)) (refMethod : Str) (minStd : Flt ℝ)
    (pairwise : Bool) (methodEB : EBMethod) (limits : List (Str × (Flt ℝ × Flt ℝ))) (draws : Str → Str → Draws) :
    (d ≠ d' → Regr.justBenchmark T d d' xTrain yTrain xTest yTest methods losses refMethod minStd pairwise methodEB limits
      draws = .error .assertion) ∧
    (refMethod ∉ (methods.map fun m => m.1) ∨ losses = [] → ∀ full, Regr.justBenchmark T d d' xTrain yTrain xTest yTest
      methods losses refMethod minStd pairwise methodEB limits draws ≠ .ok full) := by
  constructor
  · intro hd
    unfold Regr.justBenchmark
    rw [pyAssert_bind, if_neg (by simpa using hd)]
  · intro hr full h
    obtain ⟨hd, t, h1, tbl, h2, l, h3, rfl⟩ := (regrBench_ok_iff ..).1 h
    obtain ⟨n, -, rs, -, rfl⟩ := (getGaussPred_ok_iff ..).1 h1
    obtain ⟨-, -, -, lss, -, rfl⟩ := (regrTable_ok_iff ..).1 h2
    obtain ⟨a, -, b, -⟩ := summary_ok.1 h3
    rcases hr with hr | rfl
    · exact hr (((sortLevel_perm _).trans (sortLevel_perm _)).mem_iff.1 a)
    · exact b rfl

/-! ### The standard losses -/

theorem predictsGauss_unique {xTrain : Features D} {yTrain : Arr} {xTest : Features D} {e : Regr.Estimator D}
    {mu std mu' std' : Arr} (h : PredictsGauss xTrain yTrain xTest e mu std)
    (h' : PredictsGauss xTrain yTrain xTest e mu' std') : mu = mu' ∧ std = std' := by
  have a := (C88_method ..).2 h
  rw [(C88_method ..).2 h', Except.ok.injEq, Prod.mk.injEq] at a
  exact ⟨a.1.symm, a.2.symm⟩

/-- The average of `f` of the targets, means and standard deviations. -/
noncomputable def avgLoss (f : ℝ → ℝ → ℝ → ℝ) (ys mus sds : List ℝ) : ℝ :=
  avg (List.zipWith (fun (g : ℝ → ℝ) s => g s) (List.zipWith (fun y m => f y m) ys mus) sds)

theorem perPoint_eq {f : ℝ → ℝ → ℝ → ℝ} {ys mus sds : List ℝ} (h1 : mus.length = ys.length) (h2 : sds.length = ys.length)
    {L : List (Flt ℝ)} (h : PerPoint f (realArr ys) ⟨[ys.length], finVec mus⟩ ⟨[ys.length], finVec sds⟩ L) :
    L = finVec (List.zipWith (fun (g : ℝ → ℝ) s => g s) (List.zipWith (fun y m => f y m) ys mus) sds) := by
  obtain ⟨hl, hp⟩ := h
  have hl' : L.length = ys.length := by simpa [realArr] using hl
  refine List.ext_getElem (by simp [finVec, h1, h2, hl']) fun i hi hi' => ?_
  have h0 : i < ys.length := hl' ▸ hi
  have := hp i ys[i] (mus[i]'(by omega)) (sds[i]'(by omega)) (by simp [realArr, h0])
    (by simp [finVec, h1, h0]) (by simp [finVec, h2, h0])
  rw [List.getElem?_eq_getElem hi, Option.some.injEq] at this
  rw [this]
  simp [finVec]

theorem floored_eq {c : ℝ} {stds : List ℝ} {sd : List (Flt ℝ)}
    (h : List.Forall₂ (fun own s => Flt.fin c ≤ s ∧ (Flt.fin c ≤ own → s = own) ∧ (own < Flt.fin c → s = Flt.fin c))
      (realArr stds).data sd) : sd = finVec (stds.map fun s => max c s) := by
  unfold realArr at h
  simp only at h
  induction stds generalizing sd with
  | nil => cases h; rfl
  | cons s stds ih =>
    rw [List.map_cons] at h
    cases h with
    | @cons _ v _ sd' h1 h2 =>
      rw [ih h2]
      simp only [finVec, List.map_cons, List.cons.injEq, and_true]
      rcases le_or_gt c s with hs | hs
      · rw [h1.2.1 (by simpa using hs), max_eq_right hs]
      · rw [h1.2.2 (by simpa using hs), max_eq_left hs.le]

/-- **C91, regression with the standard losses.**  If the data have the right shapes, all targets are numbers, every method
predicts numbers and after flooring positive standard deviations, then `just_benchmark` with `STD_REGR_LOSS` succeeds.  The means in the table are the average
negative log density, squared error and absolute error over the test points. -/
theorem C91_regr_standard (T : Nat → RefDist) (d : Str) {xTrain : Features D} {yTrain : Arr} {xTest : Features D}
    {ys : List ℝ} {methods : List (Str × Regr.Estimator D)} {refMethod : Str} {c : ℝ} (pairwise : Bool)
    {methodEB : EBMethod} {draws : Str → Str → Draws}
    (hn : (methods.map fun m => m.1).Nodup) (href : refMethod ∈ (methods.map fun m => m.1))
    (hg : GoodRegr xTrain yTrain xTest (.fin c) ys.length) (pred : Str → List ℝ × List ℝ)
    (hp : ∀ m ∈ methods, PredictsGauss xTrain yTrain xTest m.2 (realArr (pred m.1).1) (realArr (pred m.1).2) ∧
      (pred m.1).1.length = ys.length ∧ (pred m.1).2.length = ys.length ∧ ∀ s ∈ (pred m.1).2, 0 < max c s)
    (hm : methodEB ≠ .other) (hT : 2 ≤ ys.length → IsSymmetric (T (ys.length - 1)))
    (hd : methodEB = .boot → ∀ metric method, ValidDraws ys.length 1000 (draws metric method).eb ∧
      ValidDraws ys.length 1000 (draws metric method).test) :
    ∃ full, Regr.justBenchmark T d d xTrain yTrain xTest (realArr ys) methods stdRegrLoss refMethod (.fin c) pairwise methodEB
        [] draws = .ok full ∧
      (full.methods.Perm (methods.map fun m => m.1) ∧ full.methods.Pairwise (· ≤ ·)) ∧
      full.metrics = ["MAE".toList, "MSE".toList, "NLL".toList] ∧
      List.Forall₂ (fun metric col => ∀ f, (metric, f) ∈ stdPoint → List.Forall₂ (fun method cell =>
        cell.1 = Flt.fin (avgLoss f ys (pred method).1 ((pred method).2.map fun s => max c s))) full.methods col)
        full.metrics full.columns := by
  obtain ⟨t, ht⟩ := C88_success (methods := methods) hg fun m hm' => by
    obtain ⟨a, b, c', -⟩ := hp m hm'
    exact ⟨_, _, a, by simp [realArr, b], by simp [realArr, c'], by simp [realArr, Arr.Ok], by simp [realArr, Arr.Ok]⟩
  obtain ⟨hg', hmom, hperm, hsorted, hnod, hcols, hmeth⟩ := C88_table hn ht
  have hrows : t.nrows = ys.length := by
    obtain ⟨_, _, -, -, a⟩ := hg.shapes
    obtain ⟨_, _, -, -, b⟩ := hg'.shapes
    rw [a, List.cons.injEq] at b
    exact b.1.symm
  have hM : t.methods.Nodup := hperm.nodup_iff.2 hn
  have hcol : ∀ m ∈ methods, HasCol t.cols (m.1, "mu".toList) (finVec (pred m.1).1) ∧
      HasCol t.cols (m.1, "std".toList) (finVec ((pred m.1).2.map fun s => max c s)) := by
    intro m hm'
    obtain ⟨mu, std, sd, a1, -, -, a4, a5, a6⟩ := hmeth m hm'
    obtain ⟨rfl, rfl⟩ := predictsGauss_unique (hp m hm').1 a1
    rw [floored_eq a6] at a5
    exact ⟨a4, a5⟩
  have hvals : ∀ k ∈ t.cols, ∃ m ∈ methods, k.1 = (m.1, "mu".toList) ∧ k.2 = finVec (pred m.1).1 ∨
      ∃ m ∈ methods, k.1 = (m.1, "std".toList) ∧ k.2 = finVec ((pred m.1).2.map fun s => max c s) := by
    intro k hk
    obtain ⟨a, b, -⟩ := hcols k hk
    obtain ⟨m, hm', e⟩ := List.mem_map.1 (hperm.mem_iff.1 a)
    rw [hmom] at b
    have hk' : HasCol t.cols k.1 k.2 := hasCol_of_mem hnod (by simpa using hk)
    simp only [List.mem_cons, List.not_mem_nil, or_false] at b
    rcases b with b | b
    · have e' : k.1 = (m.1, "mu".toList) := Prod.ext e.symm b
      rw [e'] at hk'
      exact ⟨m, hm', Or.inl ⟨e', hasCol_unique hk' (hcol m hm').1⟩⟩
    · have e' : k.1 = (m.1, "std".toList) := Prod.ext e.symm b
      rw [e'] at hk'
      exact ⟨m, hm', Or.inr ⟨m, hm', e', hasCol_unique hk' (hcol m hm').2⟩⟩
  have hgood : GoodGauss t := ⟨by rw [hmom]; simp, by rw [hrows]; exact hg.pos, by
    intro e
    rw [← hperm.mem_iff, e] at href
    simp at href, by
    intro method hmeth'
    obtain ⟨m, hm', rfl⟩ := List.mem_map.1 (hperm.mem_iff.1 hmeth')
    exact ⟨⟨_, (hcol m hm').1⟩, ⟨_, (hcol m hm').2⟩⟩⟩
  have hlen : ∀ k ∈ t.cols, k.2.length = t.nrows := fun k hk => (hcols k hk).2.2
  obtain ⟨tbl, htbl, hper⟩ := C89_standard hgood hM hnod hlen (y := realArr ys) (by simp [realArr, Arr.Ok])
    (by simp [realArr, hrows]) (by simp [realArr]) (by
      intro k hk v hv
      obtain ⟨m, -, ⟨-, e⟩ | ⟨m', -, -, e⟩⟩ := hvals k hk
      · rw [e] at hv; simp only [finVec, List.mem_map] at hv; obtain ⟨x, -, rfl⟩ := hv; exact ⟨x, rfl⟩
      · rw [e] at hv; simp only [finVec, List.mem_map] at hv; obtain ⟨x, -, rfl⟩ := hv; exact ⟨_, rfl⟩) (by
      intro k hk hk1 v hv
      obtain ⟨m, -, ⟨e1, -⟩ | ⟨m', hm', -, e⟩⟩ := hvals k hk
      · rw [e1] at hk1; exact absurd (show "mu".toList = "std".toList from hk1) (by decide)
      · rw [e] at hv; simp only [finVec, List.map_map, List.mem_map] at hv
        obtain ⟨x, hx, rfl⟩ := hv
        simpa using (hp m' hm').2.2.2 x hx)
  obtain ⟨e1, e2, e3, e4, -, -, -, -⟩ := C89_columns stdRegr_nodup hM hnod htbl
  have hmets : tbl.metrics = ["MAE".toList, "MSE".toList, "NLL".toList] := by
    refine List.Perm.eq_of_pairwise (le := fun a b : Str => a ≤ b) (fun a b _ _ h1 h2 => List.le_antisymm h1 h2) e3.2
      (by decide) (e3.1.trans ?_)
    unfold stdRegrLoss
    simp only [List.map_cons, List.map_nil]
    decide
  have hloss : ∀ m ∈ methods, ∀ f ∈ stdPoint, HasLoss tbl f.1 m.1 (finVec (List.zipWith (fun (g : ℝ → ℝ) s => g s)
      (List.zipWith (fun y m => f.2 y m) ys (pred m.1).1) ((pred m.1).2.map fun s => max c s))) := by
    intro m hm' f hf
    obtain ⟨L, a, b⟩ := hper m.1 (hperm.mem_iff.2 (List.mem_map_of_mem hm')) _ _ (hcol m hm').1 (hcol m hm').2 f hf
    rw [hrows] at b
    rw [← perPoint_eq (hp m hm').2.1 (by rw [List.length_map]; exact (hp m hm').2.2.1) b]
    exact a
  have hlens : ∀ m ∈ methods, ∀ f : ℝ → ℝ → ℝ → ℝ, (List.zipWith (fun (g : ℝ → ℝ) s => g s)
      (List.zipWith (fun y m => f y m) ys (pred m.1).1) ((pred m.1).2.map fun s => max c s)).length = ys.length := by
    intro m hm' f
    simp [(hp m hm').2.1, (hp m hm').2.2.1]
  have hstd : ∀ metric ∈ tbl.metrics, ∃ f, (metric, f) ∈ stdPoint := by
    rw [hmets]; simp [stdPoint]
  have hof : ∀ method ∈ tbl.methods, ∃ m ∈ methods, m.1 = method := by
    intro method hm'
    exact List.mem_map.1 ((e4.1.trans hperm).mem_iff.1 hm')
  obtain ⟨out, hout⟩ := C52_success T (tbl := tbl) (refMethod := refMethod) pairwise (c := 95 / 100) (by norm_num) (by norm_num) hm
    (limits := []) (draws := draws) (by rw [e1, hrows]; exact hT) (by rw [e1, hrows]; exact hd)
    ((e4.1.trans hperm).mem_iff.2 href) (by rw [e1, hrows]; exact hg.pos) (by rw [hmets]; simp) (by
      intro metric hmet
      refine ⟨.ninf, .pinf, .default (by simp), by simp [ValidLimits, Flt.ninf_le], fun method hmeth' => ?_⟩
      obtain ⟨f, hf⟩ := hstd metric hmet
      obtain ⟨m, hm', rfl⟩ := hof method hmeth'
      exact ⟨_, hloss m hm' (metric, f) hf, by rw [e1, hrows]; exact hlens m hm' f, fun x _ => ⟨Flt.ninf_le _, by simp⟩⟩)
  refine ⟨⟨tbl.metrics, tbl.methods, out⟩, (regrBench_ok_iff ..).2 ⟨rfl, t, ht, tbl, htbl, out, hout, rfl⟩,
    ⟨e4.1.trans hperm, e4.2⟩, hmets, ?_⟩
  have hc := C51_cells hout
  have hne : ys ≠ [] := by
    rintro rfl
    exact absurd hg.pos (by simp)
  refine hc.imp fun metric col hcells f hf => ?_
  refine forall₂_mem_imp hcells fun method cell hmem hcell => ?_
  obtain ⟨m, hm', rfl⟩ := hof method hmem
  refine C51_finite_mean hcell ?_ (hloss m hm' (metric, f) hf)
  intro e
  have := hlens m hm' f
  rw [e] at this
  exact hne (List.length_eq_zero_iff.1 this.symm)

/-! ### The order of the test points -/

theorem shapeAndValidate_reorder {σ : List Nat} {n : Nat} {y mu std : Arr} (hσ : IsPerm σ n)
    (h1 : y.data.length = n) (h2 : mu.data.length = n) (h3 : std.data.length = n) :
    shapeAndValidate (reorderArr σ y) (reorderArr σ mu) (reorderArr σ std) = shapeAndValidate y mu std := by
  unfold shapeAndValidate allFinite oneDim reorderArr
  simp only [all_perm (reorder_perm (l := y.data) (by rw [h1]; exact hσ)),
    all_perm (reorder_perm (l := mu.data) (by rw [h2]; exact hσ)),
    all_perm (reorder_perm (l := std.data) (by rw [h3]; exact hσ))]

/-- **C91.**  The squared error is a loss of each sample on its own. -/
theorem C91_sym_square : SymLoss squareLoss := by
  intro σ n y mu std L hσ h1 h2 h3 h4 h5 h6 _ h
  unfold squareLoss at *
  rw [shapeAndValidate_reorder hσ h2 h4 h6]
  obtain ⟨k, e, h⟩ := (bind_ok_iff ..).1 h
  rw [e, ok_bind]
  rw [pure_eq_ok, Except.ok.injEq] at h ⊢
  rw [← h, reorder_zipWith _ (by rw [h2]; exact perm_lt hσ) (by rw [h4]; exact perm_lt hσ)]
  rfl

/-- **C91.**  The absolute error is a loss of each sample on its own. -/
theorem C91_sym_abs : SymLoss absLoss := by
  intro σ n y mu std L hσ h1 h2 h3 h4 h5 h6 _ h
  unfold absLoss at *
  rw [shapeAndValidate_reorder hσ h2 h4 h6]
  obtain ⟨k, e, h⟩ := (bind_ok_iff ..).1 h
  rw [e, ok_bind]
  rw [pure_eq_ok, Except.ok.injEq] at h ⊢
  rw [← h, reorder_zipWith _ (by rw [h2]; exact perm_lt hσ) (by rw [h4]; exact perm_lt hσ)]
  rfl

/-- **C91.**  The log loss is a loss of each sample on its own. -/
theorem C91_sym_log : SymLoss Regr.logLoss := by
  intro σ n y mu std L hσ h1 h2 h3 h4 h5 h6 _ h
  unfold Regr.logLoss at *
  rw [shapeAndValidate_reorder hσ h2 h4 h6]
  obtain ⟨k, e, h⟩ := (bind_ok_iff ..).1 h
  rw [e, ok_bind]
  rw [pure_eq_ok, Except.ok.injEq] at h ⊢
  rw [← h, reorder_zipWith _ (by rw [h2]; exact perm_lt hσ)
    (by rw [List.length_zip, h4, h6, Nat.min_self]; exact perm_lt hσ)]
  unfold List.zip
  rw [reorder_zipWith _ (by rw [h4]; exact perm_lt hσ) (by rw [h6]; exact perm_lt hσ)]
  rfl

/-- **C91.**  The standard losses are losses of each sample on its own. -/
theorem C91_sym_std : ∀ l ∈ stdRegrLoss, SymLoss l.2 := by
  unfold stdRegrLoss
  simp only [List.mem_cons, List.not_mem_nil, or_false, forall_eq_or_imp, forall_eq]
  exact ⟨C91_sym_log, C91_sym_square, C91_sym_abs⟩

/-- The same test points in the order `σ`: the shape and the kind are the same, and every method predicts for each point what it did. -/
structure SameGauss (σ : List Nat) (xTrain : Features D) (yTrain : Arr) (xTest xTest' : Features D)
    (methods : List (Str × Regr.Estimator D)) : Prop where
  shape : xTest'.shape = xTest.shape
  kind : xTest'.kind = xTest.kind
  preds : ∀ m ∈ methods, ∀ mu std, PredictsGauss xTrain yTrain xTest m.2 mu std →
    PredictsGauss xTrain yTrain xTest' m.2 (reorderArr σ mu) (reorderArr σ std)

theorem gaussPred_reorder {σ : List Nat} {xTrain : Features D} {yTrain : Arr} {xTest xTest' : Features D}
    {methods : List (Str × Regr.Estimator D)} {minStd : Flt ℝ} {t : GaussTable}
    (hs : SameGauss σ xTrain yTrain xTest xTest' methods)
    (h : getGaussPred xTrain yTrain xTest methods minStd = .ok t) (hσ : IsPerm σ t.nrows) :
    getGaussPred xTrain yTrain xTest' methods minStd = .ok (reorderGauss σ t) := by
  obtain ⟨n, hg, rs, hr, rfl⟩ := (getGaussPred_ok_iff ..).1 h
  refine (getGaussPred_ok_iff ..).2 ⟨n, ⟨by rw [hs.shape]; exact hg.shapes, hg.pos, by rw [hs.kind]; exact hg.same,
    hg.floor⟩, rs.map fun r => (reorderArr σ r.1, reorderArr σ r.2), ?_, ?_⟩
  · refine forall₂_map_right _ (forall₂_mem_imp hr (S := fun m r => m ∈ methods ∧ _) fun m r hm h => ⟨hm, h⟩) ?_
    rintro m r ⟨hm, h1, h2, h3, h4, h5⟩
    exact ⟨hs.preds m hm _ _ h1, h2, h3, reorder_length hσ h4, reorder_length hσ h5⟩
  · unfold reorderGauss
    simp only [GaussTable.mk.injEq, true_and]
    rw [puts_reorder, emptyCols_reorder hσ, List.map_flatten, List.map_zipWith, List.zipWith_map_right]
    simp only [List.map_cons, List.map_nil, reorderArr, reorder_map]

theorem gaussColumn_reorder (σ : List Nat) {t : GaussTable} (hn : (t.cols.map (·.1)).Nodup) {method moment : Str} {a : Arr}
    (h : t.column method moment = .ok a) : (reorderGauss σ t).column method moment = .ok (reorderArr σ a) := by
  obtain ⟨v, hv, rfl⟩ := (gaussColumn_ok_iff hn ..).1 h
  obtain ⟨b, c, e, h1, h2⟩ := hv
  refine gaussColumn_ok (t := reorderGauss σ t) ⟨b.map fun c => (c.1, reorder σ c.2), c.map fun c => (c.1, reorder σ c.2), ?_, ?_, ?_⟩
  · unfold reorderGauss
    simp only [e, List.map_append, List.map_cons]
  · rintro k hk
    obtain ⟨k, hk', rfl⟩ := List.mem_map.1 hk
    exact h1 k hk'
  · rintro k hk
    obtain ⟨k, hk', rfl⟩ := List.mem_map.1 hk
    exact h2 k hk'

theorem regrTable_reorder {σ : List Nat} {t : GaussTable} {y : Arr} {losses : List (Str × Loss)} {tbl : LossTable}
    (hl : ∀ l ∈ losses, SymLoss l.2) (hn : (t.cols.map (·.1)).Nodup) (hc : ∀ c ∈ t.cols, c.2.length = t.nrows)
    (hy : y.Ok) (hσ : IsPerm σ t.nrows) (h : Regr.lossTable t y losses = .ok tbl) :
    Regr.lossTable (reorderGauss σ t) (reorderArr σ y) losses = .ok (reorderRows σ tbl) := by
  obtain ⟨h1, h2, h3, lss, hls, rfl⟩ := (regrTable_ok_iff ..).1 h
  have hlen : ∀ {method moment : Str} {a : Arr}, t.column method moment = .ok a → a.shape = [t.nrows] ∧ a.data.length = t.nrows := by
    intro method moment a ha
    obtain ⟨v, hv, rfl⟩ := (gaussColumn_ok_iff hn ..).1 ha
    obtain ⟨b, c, e, -, -⟩ := hv
    exact ⟨rfl, hc ((method, moment), v) (by rw [e]; simp)⟩
  have hy' : y.data.length = t.nrows := by
    unfold Arr.Ok at hy
    rw [hy, h2]; simp
  refine (regrTable_ok_iff ..).2 ⟨h1, h2, h3, lss.map fun ls => ls.map fun l => reorder σ l, ?_, ?_⟩
  · refine forall₂_map_right _ hls ?_
    rintro method ls ⟨mu, std, a1, a2, a3⟩
    refine ⟨reorderArr σ mu, reorderArr σ std, gaussColumn_reorder σ hn a1, gaussColumn_reorder σ hn a2, ?_⟩
    refine forall₂_map_right _ (forall₂_mem_imp a3 (S := fun m l => m ∈ losses ∧ _) fun m r hm h => ⟨hm, h⟩) ?_
    rintro m l ⟨hm, b1, b2⟩
    exact ⟨hl m hm σ t.nrows y mu std l hσ h2 hy' (hlen a1).1 (hlen a1).2 (hlen a2).1 (hlen a2).2 b2 b1,
      reorder_length hσ b2⟩
  · unfold reorderRows reorderGauss
    simp only [LossTable.mk.injEq, true_and]
    rw [puts_reorder, emptyCols_reorder hσ, List.map_flatten, List.map_zipWith, List.zipWith_map_right]
    simp only [List.map_flatten, List.map_zipWith, List.zipWith_map_right, List.map_cons, List.map_nil]

theorem regrTable_lengths {t : GaussTable} {y : Arr} {losses : List (Str × Loss)} {tbl : LossTable}
    (h : Regr.lossTable t y losses = .ok tbl) : tbl.nrows = t.nrows ∧ ∀ c ∈ tbl.cols, c.2.length = tbl.nrows := by
  obtain ⟨h1, h2, h3, lss, hls, rfl⟩ := (regrTable_ok_iff ..).1 h
  refine ⟨rfl, puts_lengths (emptyCols_lengths _) fun c hc => ?_⟩
  obtain ⟨x, hx, hc⟩ := List.mem_flatten.1 hc
  obtain ⟨method, ls, -, ⟨mu, std, -, -, a3⟩, rfl⟩ := forall₂_zipWith_mem hls hx
  obtain ⟨z, hz, hc⟩ := List.mem_flatten.1 hc
  obtain ⟨m, l, -, ⟨-, b2⟩, rfl⟩ := forall₂_zipWith_mem a3 hz
  rw [List.mem_singleton.1 hc]
  exact b2

/-- **C91, regression, order of the test points.**  With losses of each sample on its own (such as the standard ones, C91_sym_std) the
order of the test points does not matter: if the points, their targets and the bootstrap draws are put in another
order, the table is the same. -/
theorem C91_regr_order {T : Nat → RefDist} {d d' : Str} {xTrain : Features D} {yTrain : Arr} {xTest xTest' : Features D}
    {yTest : Arr} {methods : List (Str × Regr.Estimator D)} {losses : List (Str × Loss)} {refMethod : Str} {minStd : Flt ℝ}
    {pairwise : Bool} {methodEB : EBMethod} {limits : List (Str × (Flt ℝ × Flt ℝ))} {draws draws' : Str → Str → Draws}
    {full : FullTable} {σ : List Nat} (hn : (methods.map fun m => m.1).Nodup) (hl : ∀ l ∈ losses, SymLoss l.2)
    (hy : yTest.Ok) (hσ : IsPerm σ yTest.data.length) (hs : SameGauss σ xTrain yTrain xTest xTest' methods)
    (hd : methodEB = .boot → ∀ metric method, draws' metric method = reorderDraws σ (draws metric method) ∧
      (∀ row ∈ (draws metric method).eb, row.length = yTest.data.length) ∧
      ∀ row ∈ (draws metric method).test, row.length = yTest.data.length)
    (h : Regr.justBenchmark T d d' xTrain yTrain xTest yTest methods losses refMethod minStd pairwise methodEB limits
      draws = .ok full) :
    Regr.justBenchmark T d d' xTrain yTrain xTest' (reorderArr σ yTest) methods losses refMethod minStd pairwise methodEB
      limits draws' = .ok full := by
  obtain ⟨hdd, t, h1, tbl, h2, l, h3, rfl⟩ := (regrBench_ok_iff ..).1 h
  obtain ⟨-, -, -, -, hnod, hcols, -⟩ := C88_table hn h1
  have hlen : yTest.data.length = t.nrows := by
    unfold Arr.Ok at hy
    rw [hy, ((regrTable_ok_iff ..).1 h2).2.1]; simp
  rw [hlen] at hσ hd
  obtain ⟨e1, e2⟩ := regrTable_lengths h2
  refine (regrBench_ok_iff ..).2 ⟨hdd, _, gaussPred_reorder hs h1 hσ, _,
    regrTable_reorder hl hnod (fun c hc => (hcols c hc).2.2) hy hσ h2, l, ?_, rfl⟩
  rw [C53_row_order T e2 (by rw [e1]; exact hσ) refMethod pairwise (.fin (95 / 100)) methodEB limits draws draws'
    (by rw [e1]; exact hd), h3]

/-! ### Examples -/

/-- A regressor that predicts the only feature with standard deviation 2. -/
noncomputable def echo : Regr.Estimator (List ℝ) := fun _ _ =>
  .ok ⟨fun x => .ok (realArr x.data, realArr (x.data.map fun _ => 2)), fun _ => .error .typeError⟩

noncomputable def echoTrain : Features (List ℝ) := ⟨[1, 1], 'f', [0]⟩
noncomputable def echoTest (l : List ℝ) : Features (List ℝ) := ⟨[2, 1], 'f', l⟩

/-- Two test points with features 1 and 5 and targets 2 and 3: the mean square error of the table is 5/2. -/
theorem echo_ok (T : Nat → RefDist) (hT : IsSymmetric (T 1)) (draws : Str → Str → Draws) :
    ∃ full, Regr.justBenchmark T ['f'] ['f'] echoTrain (realArr [7]) (echoTest [1, 5]) (realArr [2, 3])
      [("echo".toList, echo)] stdRegrLoss "echo".toList (.fin 0) false .t [] draws = .ok full ∧
      ∃ a c e p p' e', full.columns = [a, [(.fin (5 / 2), e, p)], c] ∧ a = [(.fin (3 / 2), e', p')] := by
  obtain ⟨full, h, ⟨hm, -⟩, hmet, hcols⟩ := C91_regr_standard T ['f'] (xTrain := echoTrain) (yTrain := realArr [7])
    (xTest := echoTest [1, 5]) (ys := [2, 3]) (methods := [("echo".toList, echo)]) (refMethod := "echo".toList) (c := 0) false
    (methodEB := .t) (draws := draws) (by simp) (by simp)
    ⟨⟨1, 1, rfl, rfl, rfl⟩, by simp, rfl, by simp, le_refl _⟩ (fun _ => ([1, 5], [2, 2]))
    (by
      intro m hm
      obtain rfl := List.mem_singleton.1 hm
      exact ⟨⟨_, rfl, Or.inl rfl⟩, rfl, rfl, by simp⟩) (by simp) (fun _ => hT) (by simp)
  refine ⟨full, h, ?_⟩
  have hm' : full.methods = ["echo".toList] := List.perm_singleton.1 hm
  rw [hmet, hm'] at hcols
  match hfc : full.columns, hcols with
  | [a, b, c], .cons h1 (.cons h2 (.cons h3 .nil)) =>
    have h1' := h1 (fun a m _ => |a - m|) (by simp [stdPoint])
    have h2' := h2 (fun a m _ => (a - m) ^ 2) (by simp [stdPoint])
    match a, h1', b, h2' with
    | [(u, e', p')], .cons hu .nil, [(v, e, p)], .cons hv .nil =>
      simp only at hu hv
      refine ⟨[(u, e', p')], c, e, p, p', e', ?_, ?_⟩
      · rw [hv]
        norm_num [avgLoss, avg]
      · rw [hu]
        norm_num [avgLoss, avg]

/-- The same with the points in the other order. -/
example (T : Nat → RefDist) (hT : IsSymmetric (T 1)) (draws draws' : Str → Str → Draws) :
    ∃ full, Regr.justBenchmark T ['f'] ['f'] echoTrain (realArr [7]) (echoTest [1, 5]) (realArr [2, 3])
        [("echo".toList, echo)] stdRegrLoss "echo".toList (.fin 0) false .t [] draws = .ok full ∧
      Regr.justBenchmark T ['f'] ['f'] echoTrain (realArr [7]) (echoTest [5, 1]) (realArr [3, 2])
        [("echo".toList, echo)] stdRegrLoss "echo".toList (.fin 0) false .t [] draws' = .ok full := by
  obtain ⟨full, h, -⟩ := echo_ok T hT draws
  refine ⟨full, h, ?_⟩
  have hs : SameGauss [1, 0] echoTrain (realArr [7]) (echoTest [1, 5]) (echoTest [5, 1]) [("echo".toList, echo)] := by
    refine ⟨rfl, rfl, fun m hm mu std hp => ?_⟩
    obtain rfl := List.mem_singleton.1 hm
    obtain ⟨rfl, rfl⟩ := predictsGauss_unique hp (⟨_, rfl, Or.inl rfl⟩ : PredictsGauss echoTrain (realArr [7])
      (echoTest [1, 5]) echo _ _)
    exact ⟨_, rfl, Or.inl (by simp [echoTest, realArr, reorderArr, reorder])⟩
  have := C91_regr_order (σ := [1, 0]) (draws' := draws') (by simp) C91_sym_std
    (yTest := realArr [2, 3]) (by simp [realArr, Arr.Ok])
    (by simp only [realArr, List.length_map, List.length_cons, List.length_nil, IsPerm]; decide) hs (by simp) h
  simpa [realArr, reorderArr, reorder] using this

example (T : Nat → RefDist) (draws : Str → Str → Draws) :
    Regr.justBenchmark T ['f'] ['i'] echoTrain (realArr [7]) (echoTest [1, 5]) (realArr [2, 3])
      [("echo".toList, echo)] stdRegrLoss "echo".toList (.fin 0) false .t [] draws = .error .assertion :=
  (C91_regr_reject T ..).1 (by decide)

end Mlp.Props
