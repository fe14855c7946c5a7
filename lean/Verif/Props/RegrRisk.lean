import Verif.Spec.BenchRisk
import Verif.Props.RegrBench
import Verif.Props.TableCoverage

/-! # C141: the loss table of a regression benchmark -/

namespace Mlp.Props
open Mlp.Util Mlp.Spec Mlp.Regr Mlp.Lemmas Mlp.Frame
open Mlp.Classif (Features shapeAt FullTable)
open Mlp.Paper (RefDist EBMethod Draws LossTable lossSummaryTable defaultConfidence defaultNBoot)

variable {D : Type}

/-- The standard regression losses score each sample on its own. -/
theorem scores_regr : List.Forall₂ (fun (m : Str × Loss) (f : Str × (ℝ → ℝ → ℝ → ℝ)) => m.1 = f.1 ∧ ScoresR m.2 f.2) stdRegrLoss stdPoint := by
  have key := fun (y mu std : Arr) (n : ℕ) (h : RegrInput y mu std n) (hy : y.Ok) (hm : mu.Ok) (hs : std.Ok) => stdRegr_points h hy hm hs
  refine List.forall₂_iff_get.2 ⟨rfl, fun i h1 h2 => ⟨?_, fun y mu std n h hy hm hs => ((List.forall₂_iff_get.1 (key y mu std n h hy hm hs)).2 i h1 h2).2⟩⟩
  have : i < 3 := h1
  interval_cases i <;> rfl

theorem regr_losses {T : Nat → RefDist} {d d' : Str} {xTrain : Features D} {yTrain : Arr} {xTest : Features D}
    {yTest : Arr} {methods : List (Str × Regr.Estimator D)} {losses : List (Str × Loss)} {refMethod : Str} {c : ℝ}
    {pairwise : Bool} {methodEB : EBMethod} {limits : List (Str × (Flt ℝ × Flt ℝ))} {ld : Str → Str → Draws}
    {full : FullTable} (hn : (methods.map fun m => m.1).Nodup) (hk : (losses.map fun m => m.1).Nodup)
    {n : ℕ} {target : Fin n → ℝ} {mean std : Str → Fin n → ℝ}
    (ht : RegrTestSet xTrain yTrain xTest yTest methods c target mean std)
    (h : Regr.justBenchmark T d d' xTrain yTrain xTest yTest methods losses refMethod (.fin c) pairwise methodEB limits
      ld = .ok full) :
    1 ≤ n ∧ ∃ tbl out, lossSummaryTable T tbl refMethod pairwise (.fin (95 / 100)) methodEB limits ld = .ok out ∧
      (∀ l ∈ losses, ∀ f, ScoresR l.2 f → ∀ m ∈ methods,
        HasLoss tbl l.1 m.1 (finVec (List.ofFn fun i => f (target i) (mean m.1 i) (max c (std m.1 i))))) ∧
      (∀ metric method cell, FullCell full metric method cell → SummaryCell tbl out metric method cell) ∧
      tbl.nrows = n ∧ tbl.metrics.Perm (losses.map fun m => m.1) ∧ tbl.methods.Perm (methods.map fun m => m.1) ∧
      ∀ (T' : Nat → RefDist) (M' : EBMethod) (pairwise' : Bool) (limits' : List (Str × (Flt ℝ × Flt ℝ))) (ld' : Str → Str → Draws)
        (out' : List (List (Flt ℝ × Flt ℝ × Flt ℝ))),
        lossSummaryTable T' tbl refMethod pairwise' (.fin (95 / 100)) M' limits' ld' = .ok out' →
        Regr.justBenchmark T' d d' xTrain yTrain xTest yTest methods losses refMethod (.fin c) pairwise' M' limits' ld' =
          .ok ⟨tbl.metrics, tbl.methods, out'⟩ := by
  obtain ⟨hd, t, h1, tbl, h2, out, h3, rfl⟩ := (regrBench_ok_iff ..).1 h
  obtain ⟨hg, -, hp, -, hnod, hcols, hm⟩ := C88_table hn h1
  have hM : t.methods.Nodup := (hp.nodup_iff).2 hn
  obtain ⟨e1, e2, e3, e4, -, -, -, e8⟩ := C89_columns hk hM hnod h2
  have hrows : t.nrows = n := by
    rw [ht.targets] at e2
    simpa [realArr, eq_comm] using e2
  have hpos := hg.pos
  refine ⟨by omega, tbl, out, h3, ?_, fun metric method cell hc => hc, e1.trans hrows, e3.1, e4.1.trans hp,
    fun T' M' pairwise' limits' ld' out' ho => (regrBench_ok_iff ..).2 ⟨hd, t, h1, tbl, h2, out', ho, rfl⟩⟩
  intro lo hlo f hf m hm'
  obtain ⟨mu, sd0, sd, a1, a2, a3, a4, a5, a6⟩ := hm m hm'
  obtain ⟨mu', sd', L, b1, b2, b3, b4, b5⟩ := e8 lo hlo m.1 ((hp.mem_iff).2 (List.mem_map_of_mem hm'))
  obtain rfl := hasCol_unique a4 b1
  obtain rfl := hasCol_unique a5 b2
  obtain ⟨rfl, rfl⟩ := predictsGauss_unique (ht.preds m hm') a1
  obtain rfl := floored_eq a6
  rw [hrows, ht.targets] at b3
  obtain ⟨L', w1, w2⟩ := hf (realArr (List.ofFn target)) ⟨[n], (realArr (List.ofFn (mean m.1))).data⟩
    ⟨[n], finVec ((List.ofFn (std m.1)).map fun s => max c s)⟩ n
    ⟨by omega, ⟨by simp [realArr], rfl, rfl⟩, by
      rintro v (hv | hv | hv)
      · simp only [realArr, List.mem_map] at hv; obtain ⟨x, -, rfl⟩ := hv; exact ⟨x, rfl⟩
      · simp only [realArr, List.mem_map] at hv; obtain ⟨x, -, rfl⟩ := hv; exact ⟨x, rfl⟩
      · simp only [finVec, List.mem_map] at hv; obtain ⟨x, -, rfl⟩ := hv; exact ⟨x, rfl⟩, by
      intro v hv
      simp only [finVec, List.map_map, List.mem_map, List.mem_ofFn] at hv
      obtain ⟨_, ⟨i, rfl⟩, rfl⟩ := hv
      simpa using ht.pos m hm' i⟩ (by simp [realArr, Arr.Ok]) (by simp [realArr, Arr.Ok]) (by simp [finVec, Arr.Ok])
  rw [b3, Except.ok.injEq] at w1
  subst w1
  have : L = finVec (List.ofFn fun i => f (target i) (mean m.1 i) (max c (std m.1 i))) := by
    apply List.ext_getElem
    · rw [b4, hrows]; simp [finVec]
    · intro i i1 i2
      have hi : i < n := by rw [← hrows, ← b4]; exact i1
      have := w2.2 i (target ⟨i, hi⟩) (mean m.1 ⟨i, hi⟩) (max c (std m.1 ⟨i, hi⟩)) (by simp [realArr, hi]) (by simp [realArr, hi])
        (by simp [finVec, hi])
      rw [List.getElem?_eq_getElem i1, Option.some.injEq] at this
      rw [this]
      simp [finVec]
  rw [← this]
  exact b5

end Mlp.Props
