import Verif.Spec.BenchRisk
import Verif.Props.ClassBench
import Verif.Props.TableCoverage

/-! # C141: what just_benchmark promises about new data -/

namespace Mlp.Props
open Mlp Mlp.Util Mlp.Spec Mlp.Classif Mlp.Lemmas Mlp.Frame Mlp.Boot Mlp.Perf Mlp.Paper

/-! ### Each standard loss scores each sample on its own -/

theorem pr_pair {q : List ℝ} (h : q.length = 2) : q = [pr q 0, pr q 1] := by
  match q, h with
  | [a, b], _ => rfl

theorem scores_nll (n : ℕ) : Scores n logLoss nllAt := by
  intro y p h _ hp
  obtain ⟨L, hL, hs⟩ := C75_value h fun r hr => (hp r hr).1.1
  refine ⟨L, hL, hs.1, fun i k r hr hk => ?_⟩
  obtain ⟨v, hv, rfl⟩ := hs.2 i k r hr hk
  refine ⟨_, hv, ?_⟩
  have hrm := List.mem_of_getElem? hr
  have hk' := h.range _ (List.mem_of_getElem? hk)
  have hlen : k < r.length := by rw [h.rows r hrm]; omega
  have hpos : 0 < pr (probs r) k := by
    unfold pr probs
    rw [List.getD_eq_getElem?_getD, List.getElem?_eq_getElem (by simpa using hlen), Option.getD_some, List.getElem_map]
    have := (hp r hrm).2 _ (List.getElem_mem hlen)
    revert this
    cases r[k] <;> simp [Flt.isFinite, prob, Real.exp_pos]
  unfold nll nllAt
  rw [if_neg hpos.ne']

theorem scores_brier : Scores 2 (brierLoss true) brier2At := by
  intro y p h hn hp
  obtain ⟨L, hL, hs⟩ := C76_value h (fun r hr => (hp r hr).1.1) true
  refine ⟨L, hL, hs.1, fun i k r hr hk => ?_⟩
  obtain ⟨v, hv, rfl⟩ := hs.2 i k r hr hk
  refine ⟨_, hv, ?_⟩
  have hl : (probs r).length = 2 := by
    unfold probs
    rw [List.length_map, h.rows r (List.mem_of_getElem? hr), hn]
  rw [hn]
  unfold brierScale brierAt brier2At
  rw [hl, Finset.sum_range_succ, Finset.sum_range_one]
  norm_num [eq_comm]

theorem scores_sphere : Scores 2 (sphericalLoss true) sphere2At := by
  intro y p h hn hp
  obtain ⟨L, hL, hs⟩ := (C77_value h fun r hr => isDist_proper (hp r hr).1).2
  refine ⟨L, hL, hs.1, fun i k r hr hk => ?_⟩
  obtain ⟨v, hv, rfl⟩ := hs.2 i k r hr hk
  refine ⟨_, hv, ?_⟩
  have hl : (probs r).length = 2 := by
    unfold probs
    rw [List.length_map, h.rows r (List.mem_of_getElem? hr), hn]
  rw [hn]
  unfold norm2 sumSq sphere2At
  rw [hl, Finset.sum_range_succ, Finset.sum_range_one]
  norm_num

theorem scores_zero_one : Scores 2 (hardLoss none) zeroOne2At := by
  intro y p h hn hp
  obtain ⟨L, hL, hs⟩ := C74_zero_one h fun r hr => (hp r hr).1.1
  refine ⟨L, hL, hs.1, fun i k r hr hk => ?_⟩
  obtain ⟨v, hv, hr'⟩ := hs.2 i k r hr hk
  refine ⟨_, hv, ?_⟩
  have hk' := h.range _ (List.mem_of_getElem? hk)
  rw [hn] at hr' hk'
  have h0 : IsFirstLeast 2 (fun j => -pr (probs r) j) 0 ↔ ¬ pr (probs r) 0 < pr (probs r) 1 := by
    unfold IsFirstLeast
    constructor
    · rintro ⟨-, a, -⟩
      have := a 1 (by norm_num)
      linarith
    · intro a
      refine ⟨by norm_num, fun b hb => ?_, by simp⟩
      interval_cases b <;> linarith
  have h1 : IsFirstLeast 2 (fun j => -pr (probs r) j) 1 ↔ pr (probs r) 0 < pr (probs r) 1 := by
    unfold IsFirstLeast
    constructor
    · rintro ⟨-, -, a⟩
      have := a 0 (by norm_num)
      linarith
    · intro a
      refine ⟨by norm_num, fun b hb => ?_, fun b hb => ?_⟩ <;> interval_cases b <;> linarith
  have hk2 : k = 0 ∨ k = 1 := by omega
  show _ = Flt.fin (zeroOne2At (probs r) k)
  unfold zeroOne2At
  rcases hk2 with rfl | rfl
  · rw [h0] at hr'
    rcases hr' with ⟨a, rfl⟩ | ⟨a, rfl⟩
    · rw [if_neg a]; simp
    · rw [if_pos (not_not.1 a)]; simp
  · rw [h1] at hr'
    rcases hr' with ⟨a, rfl⟩ | ⟨a, rfl⟩
    · rw [if_pos a]; simp
    · rw [if_neg a]; simp

/-! ### The loss table of a benchmark -/

theorem prob_sub {v : Flt ℝ} (h : v ≠ .nan ∧ v ≠ .pinf) (c : ℝ) : prob (v.sub (.fin c)) = prob v * Real.exp (-c) := by
  cases v with
  | fin x => simp [Flt.sub, Flt.add, Flt.neg, prob, Real.exp_add]
  | ninf => simp [Flt.sub, Flt.add, Flt.neg, prob]
  | pinf => exact absurd rfl h.2
  | nan => exact absurd rfl h.1

/-- Shifting a row to a distribution scales its probabilities to total 1. -/
theorem probs_shift_scaled {r : List (Flt ℝ)} (hr : ∀ v ∈ r, v ≠ .nan ∧ v ≠ .pinf) {c : ℝ} (h : IsDist (shiftRow c r)) :
    probs (shiftRow c r) = r.map fun v => prob v / (r.map prob).sum := by
  have e : (shiftRow c r).map prob = r.map fun v => prob v * Real.exp (-c) := by
    unfold shiftRow
    rw [List.map_map]
    exact List.map_congr_left fun v hv => prob_sub (hr v hv) c
  have h2 := h.2
  rw [e, List.sum_map_mul_right] at h2
  unfold probs
  rw [e]
  refine List.map_congr_left fun v _ => ?_
  have : (r.map prob).sum ≠ 0 := by
    intro h0
    rw [h0] at h2
    simp at h2
  field_simp
  rw [mul_assoc, mul_comm (Real.exp _), h2, mul_one]

theorem proper_of_finite {r : List (Flt ℝ)} (hne : r ≠ []) (h : ∀ v ∈ r, v.isFinite = true) : Proper r := by
  have key : ∀ v ∈ r, ∃ x : ℝ, v = .fin x := by
    intro v hv
    have := h v hv
    revert this
    cases v <;> simp [Flt.isFinite]
  refine ⟨fun v hv => ?_, ?_⟩
  · obtain ⟨x, rfl⟩ := key v hv
    simp
  · obtain ⟨v, hv⟩ := List.exists_mem_of_ne_nil r hne
    obtain ⟨x, rfl⟩ := key v hv
    exact ⟨x, hv⟩

theorem shiftRow_finite {r : List (Flt ℝ)} (h : ∀ v ∈ r, v.isFinite = true) (c : ℝ) : ∀ v ∈ shiftRow c r, v.isFinite = true := by
  intro v hv
  obtain ⟨u, hu, rfl⟩ := List.mem_map.1 hv
  have := h u hu
  revert this
  cases u <;> simp [Flt.isFinite, Flt.sub, Flt.add, Flt.neg]

theorem shiftRow_shiftRow {r : List (Flt ℝ)} (h : ∀ v ∈ r, v.isFinite = true) (a b : ℝ) : shiftRow b (shiftRow a r) = shiftRow (a + b) r := by
  unfold shiftRow
  rw [List.map_map]
  refine List.map_congr_left fun v hv => ?_
  have := h v hv
  revert this
  cases v <;> simp [Flt.isFinite, Flt.sub, Flt.add, Flt.neg]
  ring

variable {D : Type}

/-- The loss table inside `just_benchmark`, and its cells. -/
theorem bench_losses {T : Nat → RefDist} {other : Interp ℝ} {xTrain : Features D} {yTrain : LabelVec} {xTest : Features D}
    {yTest : LabelVec} {nLabels : Nat} {methods : List (Str × Classif.Estimator D)} {losses : List (Str × Metric)}
    {curves : List (Str × CurveF ℝ)} {refMethod : Str} {floor : Flt ℝ} {pairwise : Bool} {methodEB : EBMethod}
    {limits : List (Str × (Flt ℝ × Flt ℝ))} {cd : BootDraws} {ld : Str → Str → Draws} {full : FullTable} {dump : CurveDump ℝ}
    (hn : (methods.map fun m => m.1).Nodup) (hk : (losses.map fun m => m.1).Nodup)
    {n : ℕ} {lab : Fin n → ℕ} {row : Str → Fin n → List (Flt ℝ)}
    (ht : TestSet xTrain yTrain xTest yTest nLabels methods floor lab row)
    (h : Classif.justBenchmark T other xTrain yTrain xTest yTest nLabels methods losses curves refMethod floor pairwise
      methodEB limits cd ld = .ok (full, dump)) :
    1 ≤ n ∧ ∃ tbl out, lossSummaryTable T tbl refMethod pairwise (.fin (95 / 100)) methodEB limits ld = .ok out ∧
      (∀ l ∈ losses, ∀ f, Scores nLabels l.2 f → ∀ m ∈ methods,
        HasLoss tbl l.1 m.1 (finVec (List.ofFn fun i => f (predicted floor (row m.1 i)) (lab i)))) ∧
      (∀ metric method cell, metric ∉ curves.map (·.1) → FullCell full metric method cell → SummaryCell tbl out metric method cell) ∧
      tbl.nrows = n ∧ tbl.metrics.Perm (losses.map fun m => m.1) ∧ tbl.methods.Perm (methods.map fun m => m.1) ∧
      ∀ (T' : Nat → RefDist) (M' : EBMethod) (limits' : List (Str × (Flt ℝ × Flt ℝ))) (ld' : Str → Str → Draws) (out' : List (List (Flt ℝ × Flt ℝ × Flt ℝ))),
        lossSummaryTable T' tbl refMethod pairwise (.fin (95 / 100)) M' limits' ld' = .ok out' →
        ∃ full', Classif.justBenchmark T' other xTrain yTrain xTest yTest nLabels methods losses curves refMethod floor pairwise
          M' limits' cd ld' = .ok (full', dump) ∧ (∃ a, full'.metrics = tbl.metrics ++ a) ∧ full'.methods = tbl.methods ∧
          ∃ b, full'.columns = out' ++ b := by
  obtain ⟨hkind, t, h1, h2⟩ := (classBench_ok_iff ..).1 h
  have huniq : ∀ m ∈ methods, ∀ p, Predicts xTrain yTrain xTest m.2 p → p.rows = List.ofFn (row m.1) := by
    intro m hm p hp
    have a := ht.preds m hm
    have := (trainPredict_ok_iff ..).2 a
    rw [(trainPredict_ok_iff ..).2 hp, Except.ok.injEq] at this
    rw [this]
  have hg0 := (getPredLogProb_ok_iff ..).1 h1
  have hrect : ∀ m ∈ methods, ∀ p, Predicts xTrain yTrain xTest m.2 p → Rect p := by
    intro m hm p hp r hr
    obtain ⟨_, _, qs, hF, -⟩ := hg0
    obtain ⟨i, hi, rfl⟩ := List.getElem_of_mem hm
    obtain ⟨p', f1, -, f2, -⟩ := (List.forall₂_iff_get.1 hF).2 i hi (by rw [← hF.length_eq]; exact hi)
    rw [List.get_eq_getElem] at f1
    have f3 := (trainPredict_ok_iff ..).2 f1
    rw [(trainPredict_ok_iff ..).2 hp, Except.ok.injEq] at f3
    rw [← f3] at f2
    rw [huniq _ hm p hp] at hr
    obtain ⟨k, rfl⟩ := List.mem_ofFn.1 hr
    rw [f2, ht.width _ hm]
  obtain ⟨hg, hlab, hp, hsort, hnod, hcols, hm⟩ := C81_table hn hrect h1
  have hM : t.methods.Nodup := hp.nodup_iff.2 hn
  obtain ⟨ct, tbl, out, d1, d2, d3, rfl⟩ := (summary_ok_iff ..).1 h2
  obtain ⟨e1, e2, -⟩ := (curveSummary_ok_iff ..).1 d1
  have hcurves := (C83_cells d1).2.1
  obtain ⟨k1, k2, k3, -, -, -, k7⟩ := C79_columns hk hM d2
  have hrows : t.nrows = n := by rw [← e1, ht.labels]; simp
  have hpos : 1 ≤ t.nrows := hg.pos
  refine ⟨by omega, tbl, out, d3, ?_, ?_, by rw [k1, hrows], k2.1, k3.1.trans hp, fun T' M' limits' ld' out' ho' =>
    ⟨_, (classBench_ok_iff ..).2 ⟨hkind, t, h1, (summary_ok_iff ..).2 ⟨ct, tbl, out', d1, d2, ho', rfl⟩⟩, ⟨_, rfl⟩, rfl, _, rfl⟩⟩
  · intro l hl f hf m hm'
    obtain ⟨p, q, x1, x2, x3, -, x4, x5⟩ := hm m hm'
    obtain ⟨p', q', L, y1, -, -, y2, y3, y4, y5⟩ := k7 l hl m.1 (hp.mem_iff.2 (List.mem_map_of_mem hm'))
    obtain rfl := isMatrix_unique rfl rfl (fun _ _ => Iff.rfl) x4 y1
    obtain ⟨z1, z2⟩ := y2 rfl
    have hlab2 : t.labels.length = nLabels := by rw [hlab]; simp
    have hpr := huniq m hm' p x1
    -- the rows after normalisation
    have hrow : ∀ (i : ℕ) (hi : i < n), ∃ hq : i < q'.rows.length,
        probs q'.rows[i] = predicted floor (row m.1 ⟨i, hi⟩) ∧ IsDist q'.rows[i] ∧ (∀ v ∈ q'.rows[i], v.isFinite = true) ∧
        q'.rows[i].length = nLabels := by
      intro i hi
      have i1 : i < p.rows.length := by rw [hpr]; simpa using hi
      have i2 : i < p'.rows.length := by rw [← x5.length_eq]; exact i1
      have i3 : i < q'.rows.length := by rw [← z2.length_eq]; exact i2
      refine ⟨i3, ?_⟩
      have a := (List.forall₂_iff_get.1 x5).2 i i1 i2
      have b := (List.forall₂_iff_get.1 z2).2 i i2 i3
      simp only [List.get_eq_getElem] at a b
      have er : p.rows[i] = row m.1 ⟨i, hi⟩ := by
        simp only [hpr, List.getElem_ofFn]
      rw [er] at a
      have hfin : ∀ v ∈ (row m.1 ⟨i, hi⟩).map fun v => max floor v, v.isFinite = true := by
        intro v hv
        obtain ⟨u, hu, rfl⟩ := List.mem_map.1 hv
        exact ht.finite m hm' _ u hu
      have hne : (row m.1 ⟨i, hi⟩).map (fun v => max floor v) ≠ [] := by
        intro e0
        have := ht.width m hm' ⟨i, hi⟩
        rw [List.map_eq_nil_iff] at e0
        rw [e0] at this
        have := ht.range ⟨i, hi⟩
        simp at *
        omega
      have hprop := proper_of_finite hne hfin
      have a2 := a.2 hprop
      rw [a2] at b
      have hprop2 : Proper (shiftRow (Real.log ((row m.1 ⟨i, hi⟩).map fun v => prob (max floor v)).sum)
          ((row m.1 ⟨i, hi⟩).map fun v => max floor v)) :=
        proper_of_finite (by simpa [shiftRow] using hne) (shiftRow_finite hfin _)
      obtain ⟨b1, c, b2⟩ := b hprop2
      rw [shiftRow_shiftRow hfin] at b2
      rw [b2] at b1
      refine ⟨?_, by rw [b2]; exact b1, by rw [b2]; exact shiftRow_finite hfin _, ?_⟩
      · rw [b2, probs_shift_scaled hprop.1 b1]
        unfold predicted
        rw [List.map_map, List.map_map]
        rfl
      · rw [b2]
        unfold shiftRow
        rw [List.length_map, List.length_map, ht.width m hm']
    have hql : q'.rows.length = n := by rw [← z2.length_eq, ← x5.length_eq, hpr]; simp
    have hqc : q'.ncols = nLabels := by rw [z1, y1.1, hlab2]
    have hall : ∀ r ∈ q'.rows, IsDist r ∧ (∀ v ∈ r, v.isFinite = true) ∧ r.length = nLabels := by
      intro r hr
      obtain ⟨i, hi, rfl⟩ := List.getElem_of_mem hr
      obtain ⟨_, -, a, b, c⟩ := hrow i (by rw [← hql]; exact hi)
      exact ⟨a, b, c⟩
    have hin : ClassInput yTest q' := by
      refine ⟨by rw [← hkind]; exact hg.kind, ?_, ?_, by rw [e1, hql, hrows], fun r hr => by rw [hqc]; exact (hall r hr).2.2, ?_⟩
      · rw [hqc]
        have := ht.range ⟨0, by omega⟩
        omega
      · intro e0
        rw [e0] at hql
        simp at hql
        omega
      · intro v hv
        rw [ht.labels] at hv
        obtain ⟨i, rfl⟩ := List.mem_ofFn.1 hv
        have := ht.range i
        rw [hqc]
        omega
    obtain ⟨L', w1, w2, w3⟩ := hf yTest q' hin hqc fun r hr => ⟨(hall r hr).1, (hall r hr).2.1⟩
    rw [y3, Except.ok.injEq] at w1
    subst w1
    have : L = finVec (List.ofFn fun i => f (predicted floor (row m.1 i)) (lab i)) := by
      apply List.ext_getElem
      · rw [w2, hql]; simp [finVec]
      · intro i i1 i2
        have hi : i < n := by rw [← hql, ← w2]; exact i1
        obtain ⟨hq, a, -⟩ := hrow i hi
        obtain ⟨v, b1, b2⟩ := w3 i (lab ⟨i, hi⟩) _ (List.getElem?_eq_getElem hq) (by rw [ht.labels]; simp [hi])
        rw [List.getElem?_eq_getElem i1, Option.some.injEq] at b1
        rw [b1, b2, a]
        simp [finVec]
    rw [← this]
    exact y5
  · rintro metric method cell hmc ⟨i, j, col, c1, c2, c3, c4⟩
    have hi : i < tbl.metrics.length := by
      by_contra hcon
      rw [List.getElem?_append_right (not_lt.1 hcon), hcurves] at c1
      exact hmc (List.mem_of_getElem? c1)
    have hlen : out.length = tbl.metrics.length := (C51_cells d3).length_eq.symm
    rw [List.getElem?_append_left hi] at c1
    rw [List.getElem?_append_left (by omega)] at c3
    exact ⟨i, j, col, c1, c2, c3, c4⟩

end Mlp.Props
