import Verif.Props.ClassBench

/-! # Property C92: methods that are certain, and the floor of `just_benchmark` -/

namespace Mlp.Props
open Mlp.Util Mlp.Spec Mlp.Classif Mlp.Lemmas Mlp.Frame Mlp.Boot Mlp.Perf Mlp.Paper

variable {D : Type}

/-- One of the curves of `perf_curves.py`. -/
def IsStdCurve (f : CurveF ℝ) : Prop := f = rocCurve ∨ f = recallPrecisionCurve ∨ f = prgCurve

theorem stdBinaryCurves_std : ∀ c ∈ stdBinaryCurves, IsStdCurve c.2 := by
  intro c hc
  unfold stdBinaryCurves at hc
  simp only [List.mem_cons, List.not_mem_nil, or_false] at hc
  rcases hc with rfl | rfl | rfl
  · exact Or.inl rfl
  · exact Or.inr (Or.inl rfl)
  · exact Or.inr (Or.inr rfl)

/-- **C92, without a floor.**  With the default floor `-inf` and one of the curves of the package, `just_benchmark` gives no
table if some method gives label 1 the probability zero for some test point, be it right or wrong there. -/
theorem C92_zero_fails {T : Nat → RefDist} {other : Interp ℝ} {xTrain : Features D} {yTrain : LabelVec} {xTest : Features D}
    {yTest : LabelVec} {nLabels : Nat} {methods : List (Str × Classif.Estimator D)} {losses : List (Str × Metric)}
    {curves : List (Str × CurveF ℝ)} {refMethod : Str} {pairwise : Bool} {methodEB : EBMethod}
    {limits : List (Str × (Flt ℝ × Flt ℝ))} {cd : BootDraws} {ld : Str → Str → Draws}
    (hn : (methods.map fun m => m.1).Nodup) (hk : (losses.map fun m => m.1).Nodup)
    (hrect : ∀ m ∈ methods, ∀ p, Predicts xTrain yTrain xTest m.2 p → Rect p)
    {c : Str × CurveF ℝ} (hc : c ∈ curves) (hstd : IsStdCurve c.2)
    {m : Str × Classif.Estimator D} (hm : m ∈ methods) {p : Mat ℝ} (hp : Predicts xTrain yTrain xTest m.2 p)
    {x : ℝ} (hz : [.fin x, .ninf] ∈ p.rows) (out : FullTable × CurveDump ℝ) :
    Classif.justBenchmark T other xTrain yTrain xTest yTest nLabels methods losses curves refMethod .ninf pairwise
      methodEB limits cd ld ≠ .ok out := by
  intro h
  obtain ⟨full, dump⟩ := out
  obtain ⟨-, -, -, ⟨hperm, -⟩, t, -, -, ht, ln, lc, cc, -, -, -, -, hcurve⟩ := C91_class hn hk hrect h
  obtain ⟨p', q, hp', -, -, hq, hrows⟩ := ht m hm
  have he : p' = p := by
    have := (trainPredict_ok_iff ..).2 hp'
    rw [(trainPredict_ok_iff ..).2 hp, Except.ok.injEq] at this
    exact this.symm
  subst he
  -- the row of the table that belongs to the zero
  obtain ⟨r', hr', -, hs⟩ := forall₂_mem hrows hz
  have hmap : ([.fin x, .ninf] : List (Flt ℝ)).map (fun v => max .ninf v) = [.fin x, .ninf] := by
    simp
  rw [hmap] at hs
  have hrow := hs ⟨by simp, x, by simp⟩
  -- the cell of that method
  have hmem : m.1 ∈ full.methods := hperm.mem_iff.2 (List.mem_map_of_mem hm)
  obtain ⟨col, -, hcol⟩ := forall₂_mem hcurve hc
  obtain ⟨cell, -, entry, -, pm, qm, auc, EB, pval, h1, -, h2, -⟩ := forall₂_mem hcol hmem
  have hqe := isMatrix_unique rfl rfl (fun _ _ => Iff.rfl) hq h1
  rw [hqe] at h2
  have hok : q.Ok := hq.2.2.1
  rw [(C82_reject other hok c.2 none 1000 pairwise (.fin (95 / 100)) (cd m.1 c.1)).2 hstd
    ⟨r', (List.of_mem_zip hr').2, by rw [hrow]; rfl⟩] at h2
  cases h2

/-- **C92, with a floor.**  With a finite floor the standard benchmark gives a table also for methods that give some
labels the probability zero: their log-probabilities may be numbers and `-inf`. -/
theorem C92_floor {T : Nat → RefDist} (other : Interp ℝ) {xTrain : Features D} {yTrain : LabelVec} {xTest : Features D}
    {yTest : LabelVec} {methods : List (Str × Classif.Estimator D)} {refMethod : Str} {f : ℝ} {methodEB : EBMethod}
    {cd : BootDraws} {ld : Str → Str → Draws} {nTest : Nat}
    (hn : (methods.map fun m => m.1).Nodup) (href : refMethod ∈ (methods.map fun m => m.1))
    (hg : GoodData xTrain yTrain xTest 2 (.fin f) nTest) (hkind : yTrain.kind = yTest.kind) (hy : yTest.vals.length = nTest)
    (hr : ∀ v ∈ yTest.vals, v = 0 ∨ v = 1)
    (hp : ∀ m ∈ methods, ∃ p, Predicts xTrain yTrain xTest m.2 p ∧ p.rows.length = nTest ∧ p.ncols = 2 ∧
      ∀ r ∈ p.rows, r.length = 2 ∧ ∀ v ∈ r, v ≠ .nan ∧ v ≠ .pinf)
    (hd : ∀ m c, (cd m c).length = 1000 ∧ ∀ row ∈ cd m c, row.length = nTest)
    (hm : methodEB ≠ .other) (hT : 2 ≤ nTest → IsSymmetric (T (nTest - 1)))
    (hld : methodEB = .boot → ∀ metric method, ValidDraws nTest 1000 (ld metric method).eb ∧
      ValidDraws nTest 1000 (ld metric method).test) :
    ∃ out, Classif.justBenchmark T other xTrain yTrain xTest yTest 2 methods stdClassLoss stdBinaryCurves refMethod (.fin f)
      false methodEB [] cd ld = .ok out := by
  refine C91_class_standard other hn href hg hkind hy hr ?_ hd hm hT hld
  intro m hm'
  obtain ⟨p, h1, h2, h3, h4⟩ := hp m hm'
  refine ⟨p, h1, h2, h3, fun r hr' => ⟨(h4 r hr').1, fun v hv => ?_⟩⟩
  obtain ⟨h5, h6⟩ := (h4 r hr').2 v hv
  rcases max_choice (Flt.fin f) v with e | e
  · rw [e]; rfl
  · rw [e]
    cases v with
    | fin x => rfl
    | pinf => exact absurd rfl h6
    | nan => exact absurd rfl h5
    | ninf =>
      rw [max_eq_left (Flt.ninf_le _)] at e
      cases e

/-! ### Examples -/

/-- A classifier that is certain: label 1 for positive numbers, label 0 for the others. -/
noncomputable def certain : Classif.Estimator (List ℝ) := fun _ _ =>
  .ok ⟨fun x => .ok ⟨2, x.data.map fun v => if 0 < v then [.ninf, .fin 0] else [.fin 0, .ninf]⟩, fun _ => .error .typeError⟩

theorem certain_predicts (l : List ℝ) : Predicts logitTrain ⟨'i', [1]⟩ (logitTest l) certain
    ⟨2, l.map fun v => if 0 < v then [.ninf, .fin 0] else [.fin 0, .ninf]⟩ := (trainPredict_ok_iff ..).1 rfl

/-- A perfect classifier, with the default floor: no table. -/
example (T : Nat → RefDist) (other : Interp ℝ) (cd : BootDraws) (ld : Str → Str → Draws) (out : FullTable × CurveDump ℝ) :
    Classif.justBenchmark T other logitTrain ⟨'i', [1]⟩ (logitTest [3, -1, 2]) ⟨'i', [1, 0, 1]⟩ 2
      [("certain".toList, certain), ("coin".toList, coin)] stdClassLoss stdBinaryCurves "coin".toList .ninf false .t []
      cd ld ≠ .ok out := by
  refine C92_zero_fails (c := ("AUC".toList, rocCurve)) (m := ("certain".toList, certain)) (x := 0)
    (by simp only [List.map_cons, List.map_nil]; decide) (by decide) ?_ (by unfold stdBinaryCurves; simp) (Or.inl rfl)
    (by simp) (certain_predicts _) ?_ out
  · intro m hm p hp
    simp only [List.mem_cons, List.not_mem_nil, or_false] at hm
    rcases hm with rfl | rfl
    · have := (trainPredict_ok_iff ..).2 hp
      rw [(trainPredict_ok_iff ..).2 (certain_predicts _), Except.ok.injEq] at this
      subst this
      intro r hr
      simp only [List.mem_map] at hr
      obtain ⟨v, -, rfl⟩ := hr
      split_ifs <;> rfl
    · have := (trainPredict_ok_iff ..).2 hp
      rw [(trainPredict_ok_iff ..).2 (coin_predicts _), Except.ok.injEq] at this
      subst this
      simp [Rect]
  · simp only [List.map_cons, List.map_nil, List.mem_cons]
    right; left
    norm_num

/-- The same with the floor -10: a table. -/
example (T : Nat → RefDist) (hT : IsSymmetric (T 2)) (other : Interp ℝ) (ld : Str → Str → Draws) :
    ∃ out, Classif.justBenchmark T other logitTrain ⟨'i', [1]⟩ (logitTest [3, -1, 2]) ⟨'i', [1, 0, 1]⟩ 2
      [("certain".toList, certain), ("coin".toList, coin)] stdClassLoss stdBinaryCurves "coin".toList (.fin (-10)) false .t []
      (fun _ _ => List.replicate 1000 [0, 2, 1]) ld = .ok out := by
  refine C92_floor other (by simp only [List.map_cons, List.map_nil]; decide) (by simp) (nTest := 3)
    ⟨⟨1, [], rfl, [], rfl, rfl⟩, by norm_num, Or.inr rfl, by simp, by simp, rfl, Flt.fin_lt_fin.2 (by norm_num)⟩ rfl rfl (by simp) ?_
    (fun _ _ => ⟨by rw [List.length_replicate], fun row hr => by rw [List.eq_of_mem_replicate hr]; rfl⟩) (by simp) (fun _ => hT) (by simp)
  intro m hm
  simp only [List.mem_cons, List.not_mem_nil, or_false] at hm
  rcases hm with rfl | rfl
  · refine ⟨_, certain_predicts _, rfl, rfl, fun r hr => ?_⟩
    simp only [List.mem_map] at hr
    obtain ⟨v, -, rfl⟩ := hr
    split_ifs <;> simp
  · exact ⟨_, coin_predicts _, rfl, rfl, by simp⟩

end Mlp.Props
