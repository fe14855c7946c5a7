import Verif.Spec.Sensitivity
import Verif.Props.TableCoverage
import Verif.Props.RankingEx

/-! # C148: a few test points cannot change a table by much -/

namespace Mlp.Props
open Mlp Mlp.Util Mlp.Spec Mlp.Classif Mlp.Lemmas Mlp.Frame Mlp.Boot Mlp.Perf Mlp.Paper

/-! ## Means -/

theorem changes_cons {α : Type} (a b : α) (l l' : List α) : changes (a :: l) (b :: l') = changes l l' + (open Classical in if a = b then 0 else 1) := by
  classical
  unfold changes
  rw [List.zip_cons_cons, List.countP_cons]
  by_cases h : a = b <;> simp [h]

theorem changes_finVec (xs ys : List ℝ) : changes (finVec xs) (finVec ys) = changes xs ys := by
  induction xs generalizing ys with
  | nil => cases ys <;> rfl
  | cons a xs ih =>
    cases ys with
    | nil => rfl
    | cons b ys =>
      change changes (.fin a :: finVec xs) (.fin b :: finVec ys) = _
      rw [changes_cons, changes_cons, ih]
      simp

theorem sum_changes {lo hi : ℝ} {xs ys : List ℝ} (hl : xs.length = ys.length) (hx : ∀ x ∈ xs, lo ≤ x ∧ x ≤ hi) (hy : ∀ y ∈ ys, lo ≤ y ∧ y ≤ hi) :
    |xs.sum - ys.sum| ≤ changes xs ys * (hi - lo) := by
  induction xs generalizing ys with
  | nil =>
    obtain rfl := List.eq_nil_of_length_eq_zero hl.symm
    simp [changes]
  | cons a xs ih =>
    obtain ⟨b, ys, rfl⟩ : ∃ b ys', ys = b :: ys' := by cases ys with | nil => simp at hl | cons b ys => exact ⟨b, ys, rfl⟩
    have h1 := ih (ys := ys) (by simpa using hl) (fun x h => hx x (by simp [h])) fun y h => hy y (by simp [h])
    have ha := hx a (by simp)
    have hb := hy b (by simp)
    rw [changes_cons, List.sum_cons, List.sum_cons]
    rw [abs_le] at h1 ⊢
    by_cases h : a = b
    · rw [if_pos h, add_zero]
      constructor <;> linarith
    · rw [if_neg h]
      push_cast
      constructor <;> linarith

theorem bounded_finVec {lo hi : ℝ} {l : List (Flt ℝ)} (h : ∀ v ∈ l, Flt.fin lo ≤ v ∧ v ≤ .fin hi) (hn : NoNaN l) :
    ∃ xs, l = finVec xs ∧ ∀ x ∈ xs, lo ≤ x ∧ x ≤ hi := by
  induction l with
  | nil => exact ⟨[], rfl, by simp⟩
  | cons v l ih =>
    obtain ⟨xs, rfl, hxs⟩ := ih (fun w hw => h w (by simp [hw])) (fun w => hn (by simp [w]))
    have hv := h v (by simp)
    cases v with
    | nan => exact absurd List.mem_cons_self hn
    | ninf => simp at hv
    | pinf => simp at hv
    | fin x =>
      refine ⟨x :: xs, rfl, fun y hy => ?_⟩
      rcases List.mem_cons.1 hy with rfl | hy
      · simpa using hv
      · exact hxs y hy

/-- **C148, means.**  Of two tables of losses, with limits `lo` and `hi`, let `loss` and `loss'` be the losses of a method that differ in some places.  Then the
means in the two summaries differ by at most that many times `(hi - lo)/n`. -/
theorem C148_mean {T T' : Nat → RefDist} {tbl tbl' : LossTable} {ref ref' : Str} {pw pw' : Bool} {c c' : Flt ℝ} {m m' : EBMethod}
    {limits : List (Str × (Flt ℝ × Flt ℝ))} {draws draws' : Str → Str → Draws} {out out' : List (List (Flt ℝ × Flt ℝ × Flt ℝ))}
    (h : lossSummaryTable T tbl ref pw c m limits draws = .ok out) (h' : lossSummaryTable T' tbl' ref' pw' c' m' limits draws' = .ok out')
    {metric method : Str} {lo hi : ℝ} (hlim : LimitsOf limits metric (.fin lo) (.fin hi)) {loss loss' : List (Flt ℝ)} (hl : HasLoss tbl metric method loss)
    (hl' : HasLoss tbl' metric method loss') (hlen : loss.length = loss'.length) (hne : loss ≠ []) {x x' : Flt ℝ × Flt ℝ × Flt ℝ}
    (hx : SummaryCell tbl out metric method x) (hx' : SummaryCell tbl' out' metric method x') :
    ∃ a a' : ℝ, x.1 = .fin a ∧ x'.1 = .fin a' ∧ |a - a'| ≤ changes loss loss' * ((hi - lo) / loss.length) := by
  obtain ⟨l, -, lower, upper, a1, -, a2, a3, -, a4, -, a5, -⟩ := summaryCell_isCell h hx
  obtain ⟨l', -, lower', upper', b1, -, b2, b3, -, b4, -, b5, -⟩ := summaryCell_isCell h' hx'
  obtain rfl := hasLoss_unique hl a1
  obtain rfl := hasLoss_unique hl' b1
  obtain ⟨rfl, rfl⟩ := limitsOf_unique hlim a2
  obtain ⟨rfl, rfl⟩ := limitsOf_unique hlim b2
  obtain ⟨xs, rfl, hxs⟩ := bounded_finVec a4 a3
  obtain ⟨ys, rfl, hys⟩ := bounded_finVec b4 b3
  have hxy : xs.length = ys.length := by simpa [finVec] using hlen
  have n1 : xs ≠ [] := fun e => hne (by rw [e]; rfl)
  have n2 : ys ≠ [] := fun e => n1 (List.eq_nil_of_length_eq_zero (by rw [hxy, e]; rfl))
  refine ⟨avg xs, avg ys, by rw [a5, mean_finVec n1], by rw [b5, mean_finVec n2], ?_⟩
  have hp : (0 : ℝ) < xs.length := by exact_mod_cast List.length_pos_iff.2 n1
  have key := sum_changes hxy hxs hys
  have e : (finVec xs).length = xs.length := by simp [finVec]
  rw [changes_finVec, e]
  unfold avg
  rw [← hxy, ← sub_div, abs_div, abs_of_pos hp, mul_div_assoc', div_le_div_iff_of_pos_right hp]
  exact key

/-- **C148, order.**  If the means of two methods differ by more than `2 k (hi - lo)/n`, changing `k` of the test points cannot make the worse one look at
least as good. -/
theorem C148_order {T T' : Nat → RefDist} {tbl tbl' : LossTable} {ref ref' : Str} {pw pw' : Bool} {c c' : Flt ℝ} {m m' : EBMethod}
    {limits : List (Str × (Flt ℝ × Flt ℝ))} {draws draws' : Str → Str → Draws} {out out' : List (List (Flt ℝ × Flt ℝ × Flt ℝ))}
    (h : lossSummaryTable T tbl ref pw c m limits draws = .ok out) (h' : lossSummaryTable T' tbl' ref' pw' c' m' limits draws' = .ok out')
    {metric A B : Str} {lo hi : ℝ} (hlim : LimitsOf limits metric (.fin lo) (.fin hi)) {n k : ℕ} (hn : 0 < n)
    (hk : ∀ method ∈ [A, B], ∃ loss loss', HasLoss tbl metric method loss ∧ HasLoss tbl' metric method loss' ∧ loss.length = n ∧ loss'.length = n ∧
      changes loss loss' ≤ k) {a b a' b' : Flt ℝ × Flt ℝ × Flt ℝ}
    (ha : SummaryCell tbl out metric A a) (hb : SummaryCell tbl out metric B b) (ha' : SummaryCell tbl' out' metric A a')
    (hb' : SummaryCell tbl' out' metric B b') {x y : ℝ} (hx : a.1 = .fin x) (hy : b.1 = .fin y) (hgap : 2 * k * ((hi - lo) / n) < y - x) :
    a'.1 < b'.1 := by
  obtain ⟨l1, l1', p1, p2, p3, p4, p5⟩ := hk A (by simp)
  obtain ⟨l2, l2', q1, q2, q3, q4, q5⟩ := hk B (by simp)
  obtain ⟨r1, r2, e1, e2, e3⟩ := C148_mean h h' hlim p1 p2 (p3.trans p4.symm) (fun e => by rw [e] at p3; simp at p3; omega) ha ha'
  obtain ⟨s1, s2, f1, f2, f3⟩ := C148_mean h h' hlim q1 q2 (q3.trans q4.symm) (fun e => by rw [e] at q3; simp at q3; omega) hb hb'
  rw [hx, Flt.fin.injEq] at e1
  rw [hy, Flt.fin.injEq] at f1
  subst e1 f1
  rw [p3] at e3
  rw [q3] at f3
  have hle : lo ≤ hi := by
    obtain ⟨l, -, lower, upper, a1, -, a2, a3, -, a4, -⟩ := summaryCell_isCell h ha
    obtain rfl := hasLoss_unique p1 a1
    obtain ⟨rfl, rfl⟩ := limitsOf_unique hlim a2
    obtain ⟨v, hv⟩ := List.exists_mem_of_length_pos (l := l1) (by omega)
    have := (a4 v hv).1.trans (a4 v hv).2
    simpa using this
  have hw : 0 ≤ (hi - lo) / (n : ℝ) := div_nonneg (by linarith) (by positivity)
  have g1 := e3.trans (mul_le_mul_of_nonneg_right (show ((changes l1 l1' : ℕ) : ℝ) ≤ k by exact_mod_cast p5) hw)
  have g2 := f3.trans (mul_le_mul_of_nonneg_right (show ((changes l2 l2' : ℕ) : ℝ) ≤ k by exact_mod_cast q5) hw)
  rw [abs_le] at g1 g2
  rw [e2, f2, ← not_le]
  intro hle'
  have : s2 ≤ r2 := by simpa using hle'
  linarith

/-! ## AUC -/

theorem rankShare_sensitive {n : ℕ} {lab : Fin n → Bool} (h1 : 0 < numLab lab true) (h0 : 0 < numLab lab false) (s s' : Fin n → ℝ) :
    |rankShare lab s - rankShare lab s'| ≤ rescored lab s s' true / numLab lab true + rescored lab s s' false / numLab lab false := by
  classical
  have p1 : (0 : ℝ) < numLab lab true := by exact_mod_cast h1
  have p0 : (0 : ℝ) < numLab lab false := by exact_mod_cast h0
  let ind : Fin n → ℝ := fun i => if s i ≠ s' i then 1 else 0
  have hi0 : ∀ i, 0 ≤ ind i := fun i => by dsimp only [ind]; split_ifs <;> norm_num
  have hpair : ∀ i j, |ordered (s i) (s j) - ordered (s' i) (s' j)| ≤ ind i + ind j := by
    intro i j
    by_cases hi : s i = s' i
    · by_cases hj : s j = s' j
      · rw [hi, hj, sub_self, abs_zero]
        exact add_nonneg (hi0 i) (hi0 j)
      · have e : ind j = 1 := if_pos hj
        have a := ordered_range (s i) (s j)
        have b := ordered_range (s' i) (s' j)
        rw [e, abs_le]
        constructor <;> linarith [hi0 i]
    · have e : ind i = 1 := if_pos hi
      have a := ordered_range (s i) (s j)
      have b := ordered_range (s' i) (s' j)
      rw [e, abs_le]
      constructor <;> linarith [hi0 j]
  have hcount : ∀ b, ∑ i ∈ Finset.univ.filter (fun i => lab i = b), ind i = rescored lab s s' b := by
    intro b
    unfold rescored
    rw [Finset.sum_ite, Finset.sum_const_zero, add_zero, Finset.sum_const, nsmul_eq_mul, mul_one, Finset.filter_filter]
  have hsum : |∑ p ∈ rankPairs lab, ordered (s p.1) (s p.2) - ∑ p ∈ rankPairs lab, ordered (s' p.1) (s' p.2)| ≤
      rescored lab s s' true * numLab lab false + numLab lab true * rescored lab s s' false := by
    rw [← Finset.sum_sub_distrib]
    refine (Finset.abs_sum_le_sum_abs _ _).trans ((Finset.sum_le_sum fun p _ => hpair p.1 p.2).trans (le_of_eq ?_))
    unfold rankPairs
    rw [Finset.sum_product]
    simp only [Finset.sum_add_distrib, Finset.sum_const, nsmul_eq_mul]
    rw [hcount, ← Finset.mul_sum, hcount]
    unfold numLab
    ring
  unfold rankShare
  rw [← sub_div, abs_div, abs_of_pos (mul_pos p1 p0), div_le_iff₀ (mul_pos p1 p0)]
  refine hsum.trans (le_of_eq ?_)
  field_simp

/-- **C148, one curve.**  Giving other scores to `k₁` of `n₁` positive and `k₀` of `n₀` negative cases moves the area under the ROC curve by at most
`k₁/n₁ + k₀/n₀`. -/
theorem C148_auc {n : ℕ} {lab : Fin n → Bool} (h1 : 0 < numLab lab true) (h0 : 0 < numLab lab false) (s s' : Fin n → ℝ) :
    ∃ a a' : ℝ, (∀ A, AreaOf rocCurve (List.ofFn lab) (finVec (List.ofFn s)) none A ↔ A = [.fin a]) ∧
      (∀ A, AreaOf rocCurve (List.ofFn lab) (finVec (List.ofFn s')) none A ↔ A = [.fin a']) ∧
      |a - a'| ≤ rescored lab s s' true / numLab lab true + rescored lab s s' false / numLab lab false :=
  ⟨_, _, fun _ => roc_share_iff h1 h0 s, fun _ => roc_share_iff h1 h0 s', rankShare_sensitive h1 h0 s s'⟩

variable {D : Type}

/-- **C148, benchmark.**  The same for the AUC of a method in two runs of `just_benchmark` whose test sets have the same labels and in which the method predicts
another probability of label 1 for `k₁` of `n₁` positive and `k₀` of `n₀` negative cases. -/
theorem C148_benchmark {T T' : Nat → RefDist} {other other' : Interp ℝ} {xTrain xTrain' : Features D} {yTrain yTrain' : LabelVec} {xTest xTest' : Features D}
    {yTest yTest' : LabelVec} {methods methods' : List (Str × Classif.Estimator D)} {losses : List (Str × Metric)}
    {curves : List (Str × CurveF ℝ)} {refMethod refMethod' : Str} {floor floor' : Flt ℝ} {pairwise pairwise' : Bool} {methodEB methodEB' : EBMethod}
    {limits limits' : List (Str × (Flt ℝ × Flt ℝ))} {cd cd' : BootDraws} {ld ld' : Str → Str → Draws}
    (hn : (methods.map fun m => m.1).Nodup) (hn' : (methods'.map fun m => m.1).Nodup) (hk : (losses.map fun m => m.1).Nodup)
    (hc : (curves.map (·.1)).Nodup) {name : Str} (hname : (name, rocCurve) ∈ curves) (hloss : name ∉ losses.map fun m => m.1)
    {n : ℕ} {lab : Fin n → Bool} {row row' : Str → Fin n → List (Flt ℝ)}
    (ht : TestSet xTrain yTrain xTest yTest 2 methods floor (fun i => if lab i then 1 else 0) row)
    (ht' : TestSet xTrain' yTrain' xTest' yTest' 2 methods' floor' (fun i => if lab i then 1 else 0) row')
    (h1 : 0 < numLab lab true) (h0 : 0 < numLab lab false) {method : Str} (hm : method ∈ methods.map fun m => m.1)
    (hm' : method ∈ methods'.map fun m => m.1) {cell cell' : Flt ℝ × Flt ℝ × Flt ℝ}
    (hcell : Shows (Classif.justBenchmark T other xTrain yTrain xTest yTest 2 methods losses curves refMethod floor pairwise methodEB limits cd ld)
      name method cell)
    (hcell' : Shows (Classif.justBenchmark T' other' xTrain' yTrain' xTest' yTest' 2 methods' losses curves refMethod' floor' pairwise' methodEB' limits'
      cd' ld') name method cell')
    {s s' : Fin n → ℝ} (hs : ∀ i, s i = (predicted floor (row method i)).getD 1 0) (hs' : ∀ i, s' i = (predicted floor' (row' method i)).getD 1 0) :
    ∃ a a' : ℝ, cell.1 = .fin a ∧ cell'.1 = .fin a' ∧
      |a - a'| ≤ rescored lab s s' true / numLab lab true + rescored lab s s' false / numLab lab false := by
  obtain ⟨full, dump, hf, hx⟩ := hcell
  obtain ⟨full', dump', hf', hx'⟩ := hcell'
  obtain rfl : s = fun i => (predicted floor (row method i)).getD 1 0 := funext hs
  obtain rfl : s' = fun i => (predicted floor' (row' method i)).getD 1 0 := funext hs'
  exact ⟨_, _, bench_auc hn hk hc hname hloss ht h1 h0 hf hm hx, bench_auc hn' hk hc hname hloss ht' h1 h0 hf' hm' hx',
    rankShare_sensitive h1 h0 _ _⟩

/-! ### Examples -/

/-- The example table with the first loss of B changed from 1 to 0. -/
noncomputable def exTable' : LossTable :=
  ⟨["L".toList], ["A".toList, "B".toList], 2,
    [(("L".toList, "A".toList), finVec [0, 1]), (("L".toList, "B".toList), finVec [0, 1 / 2])]⟩

theorem exTable'_A : HasLoss exTable' "L".toList "A".toList (finVec [0, 1]) :=
  ⟨[], [(("L".toList, "B".toList), finVec [0, 1 / 2])], rfl, by simp, by simp⟩

theorem exTable'_B : HasLoss exTable' "L".toList "B".toList (finVec [0, 1 / 2]) :=
  ⟨[(("L".toList, "A".toList), finVec [0, 1])], [], rfl, by simp, by simp⟩

theorem exTable'_success (pw : Bool) : ∃ out, lossSummaryTable studentT exTable' "A".toList pw (.fin (19 / 20))
    .t [("L".toList, (Flt.fin 0, Flt.fin 2))] (fun _ _ => ⟨[], []⟩) = .ok out := by
  apply C52_success studentT pw (by norm_num) (by norm_num) (by simp)
  · intro _; exact studentT_isSymmetric le_rfl
  · intro h; cases h
  · simp [exTable']
  · simp [exTable']
  · simp [exTable']
  · intro metric hm
    simp only [exTable', List.mem_singleton] at hm
    subst hm
    refine ⟨.fin 0, .fin 2, exTable_limits, ⟨by simp, by simp, by simp, by simp, by simp⟩, ?_⟩
    intro method hm
    simp only [exTable', List.mem_cons, List.not_mem_nil, or_false] at hm
    rcases hm with rfl | rfl
    · exact ⟨_, exTable'_A, rfl, by intro x hx; fin_cases hx <;> simp⟩
    · exact ⟨_, exTable'_B, rfl, by intro x hx; fin_cases hx <;> first | (simp; done) | (simp; norm_num)⟩

theorem table_cells {T : Nat → RefDist} {tbl : LossTable} {ref : Str} {pw : Bool} {c : Flt ℝ} {m : EBMethod}
    {limits : List (Str × (Flt ℝ × Flt ℝ))} {draws : Str → Str → Draws} {out : List (List (Flt ℝ × Flt ℝ × Flt ℝ))}
    (h : lossSummaryTable T tbl ref pw c m limits draws = .ok out) {metric method : Str} (hm : metric ∈ tbl.metrics) (hm' : method ∈ tbl.methods) :
    ∃ cell, SummaryCell tbl out metric method cell := by
  have hf := C51_cells h
  obtain ⟨i, hi, rfl⟩ := List.mem_iff_getElem.1 hm
  obtain ⟨j, hj, rfl⟩ := List.mem_iff_getElem.1 hm'
  have h0 : i < out.length := by rw [← hf.length_eq]; exact hi
  have h1 := (List.forall₂_iff_get.1 hf).2 i hi h0
  have hj' : j < (out.get ⟨i, h0⟩).length := by rw [← h1.length_eq]; exact hj
  exact ⟨(out.get ⟨i, h0⟩)[j], i, j, out.get ⟨i, h0⟩, List.getElem?_eq_getElem hi, List.getElem?_eq_getElem hj, List.getElem?_eq_getElem h0,
    List.getElem?_eq_getElem hj'⟩

/-- The mean of B, 3/4 before, moves by at most 1; in fact it moves by 1/2. -/
example (pw : Bool) : ∃ out out' x x' a a',
    lossSummaryTable studentT exTable "A".toList pw (.fin (19 / 20)) .t [("L".toList, (Flt.fin 0, Flt.fin 2))] (fun _ _ => ⟨[], []⟩) = .ok out ∧
    lossSummaryTable studentT exTable' "A".toList pw (.fin (19 / 20)) .t [("L".toList, (Flt.fin 0, Flt.fin 2))] (fun _ _ => ⟨[], []⟩) = .ok out' ∧
    SummaryCell exTable out "L".toList "B".toList x ∧ SummaryCell exTable' out' "L".toList "B".toList x' ∧ x.1 = .fin a ∧ x'.1 = .fin a' ∧ |a - a'| ≤ 1 := by
  obtain ⟨out, h⟩ := exTable_success pw
  obtain ⟨out', h'⟩ := exTable'_success pw
  obtain ⟨x, hx⟩ := table_cells h (metric := "L".toList) (method := "B".toList) (by simp [exTable]) (by simp [exTable])
  obtain ⟨x', hx'⟩ := table_cells h' (metric := "L".toList) (method := "B".toList) (by simp [exTable']) (by simp [exTable'])
  obtain ⟨a, a', e1, e2, e3⟩ := C148_mean h h' exTable_limits exTable_B exTable'_B rfl (by simp [finVec]) hx hx'
  refine ⟨out, out', x, x', a, a', h, h', hx, hx', e1, e2, ?_⟩
  have hc : changes (finVec [1, 1 / 2]) (finVec [(0 : ℝ), 1 / 2]) = 1 := by
    rw [changes_finVec, changes_cons, changes_cons]
    simp [changes]
  rw [hc] at e3
  simpa [finVec] using e3

/-- A is right four times; B is wrong three times and has the loss `b` at the first point. -/
noncomputable def fourTable (b : ℝ) : LossTable :=
  ⟨["L".toList], ["A".toList, "B".toList], 4,
    [(("L".toList, "A".toList), finVec [0, 0, 0, 0]), (("L".toList, "B".toList), finVec [b, 2, 2, 2])]⟩

theorem fourTable_A (b : ℝ) : HasLoss (fourTable b) "L".toList "A".toList (finVec [0, 0, 0, 0]) :=
  ⟨[], [(("L".toList, "B".toList), finVec [b, 2, 2, 2])], rfl, by simp, by simp⟩

theorem fourTable_B (b : ℝ) : HasLoss (fourTable b) "L".toList "B".toList (finVec [b, 2, 2, 2]) :=
  ⟨[(("L".toList, "A".toList), finVec [0, 0, 0, 0])], [], rfl, by simp, by simp⟩

theorem fourTable_success {b : ℝ} (h0 : 0 ≤ b) (h2 : b ≤ 2) (pw : Bool) : ∃ out, lossSummaryTable studentT (fourTable b) "A".toList pw (.fin (19 / 20))
    .t [("L".toList, (Flt.fin 0, Flt.fin 2))] (fun _ _ => ⟨[], []⟩) = .ok out := by
  apply C52_success studentT pw (by norm_num) (by norm_num) (by simp)
  · intro _; exact studentT_isSymmetric (by simp [fourTable])
  · intro h; cases h
  · simp [fourTable]
  · simp [fourTable]
  · simp [fourTable]
  · intro metric hm
    simp only [fourTable, List.mem_singleton] at hm
    subst hm
    refine ⟨.fin 0, .fin 2, exTable_limits, ⟨by simp, by simp, by simp, by simp, by simp⟩, ?_⟩
    intro method hm
    simp only [fourTable, List.mem_cons, List.not_mem_nil, or_false] at hm
    rcases hm with rfl | rfl
    · exact ⟨_, fourTable_A b, rfl, by intro x hx; simp [finVec] at hx; subst hx; simp⟩
    · exact ⟨_, fourTable_B b, rfl, by intro x hx; simp [finVec] at hx; rcases hx with rfl | rfl <;> simp [h0, h2]⟩

/-- A leads by 2, so whatever becomes of the first point, A stays ahead. -/
example (pw : Bool) {b : ℝ} (h0 : 0 ≤ b) (h2 : b ≤ 2) : ∃ out a' b',
    lossSummaryTable studentT (fourTable b) "A".toList pw (.fin (19 / 20)) .t [("L".toList, (Flt.fin 0, Flt.fin 2))] (fun _ _ => ⟨[], []⟩) = .ok out ∧
    SummaryCell (fourTable b) out "L".toList "A".toList a' ∧ SummaryCell (fourTable b) out "L".toList "B".toList b' ∧ a'.1 < b'.1 := by
  obtain ⟨out, h⟩ := fourTable_success (b := 2) (by norm_num) le_rfl pw
  obtain ⟨out', h'⟩ := fourTable_success h0 h2 pw
  obtain ⟨x, hx⟩ := table_cells h (metric := "L".toList) (method := "A".toList) (by simp [fourTable]) (by simp [fourTable])
  obtain ⟨y, hy⟩ := table_cells h (metric := "L".toList) (method := "B".toList) (by simp [fourTable]) (by simp [fourTable])
  obtain ⟨x', hx'⟩ := table_cells h' (metric := "L".toList) (method := "A".toList) (by simp [fourTable]) (by simp [fourTable])
  obtain ⟨y', hy'⟩ := table_cells h' (metric := "L".toList) (method := "B".toList) (by simp [fourTable]) (by simp [fourTable])
  have e1 : x.1 = .fin 0 := by rw [C51_finite_mean (summaryCell_isCell h hx) (by simp) (fourTable_A 2)]; norm_num [avg]
  have e2 : y.1 = .fin 2 := by rw [C51_finite_mean (summaryCell_isCell h hy) (by simp) (fourTable_B 2)]; norm_num [avg]
  refine ⟨out', x', y', h', hx', hy', C148_order h h' (n := 4) (k := 1) exTable_limits (by norm_num) (fun method hm => ?_) hx hy hx' hy' e1 e2 (by norm_num)⟩
  simp only [List.mem_cons, List.not_mem_nil, or_false] at hm
  rcases hm with rfl | rfl
  · exact ⟨_, _, fourTable_A 2, fourTable_A b, rfl, rfl, by simp [changes_finVec, changes_cons]; simp [changes]⟩
  · refine ⟨_, _, fourTable_B 2, fourTable_B b, rfl, rfl, ?_⟩
    simp only [changes_finVec, changes_cons]
    simp only [changes, List.zip_nil_left, List.countP_nil]
    split_ifs <;> simp

/-- One positive case of two gets another score: the AUC moves by at most one half, and here it does. -/
example : ∃ a a' : ℝ, (∀ A, AreaOf rocCurve (List.ofFn threeLab) (finVec (List.ofFn ![3, 4, 5])) none A ↔ A = [.fin a]) ∧
    (∀ A, AreaOf rocCurve (List.ofFn threeLab) (finVec (List.ofFn ![3, 4, 2])) none A ↔ A = [.fin a']) ∧ |a - a'| ≤ 1 / 2 := by
  obtain ⟨a, a', h1, h2, h3⟩ := C148_auc (lab := threeLab) (by rw [threeLab_num.1]; norm_num) (by rw [threeLab_num.2]; norm_num) ![3, 4, 5] ![3, 4, 2]
  refine ⟨a, a', h1, h2, h3.trans (le_of_eq ?_)⟩
  have e1 : rescored threeLab ![3, 4, 5] ![3, 4, 2] true = 1 := by
    unfold rescored
    rw [Finset.card_eq_one]
    refine ⟨2, ?_⟩
    ext i
    fin_cases i <;> simp [threeLab]
  have e0 : rescored threeLab ![3, 4, 5] ![3, 4, 2] false = 0 := by
    unfold rescored
    rw [Finset.card_eq_zero]
    ext i
    fin_cases i <;> simp [threeLab]
  rw [e1, e0, threeLab_num.1, threeLab_num.2]
  norm_num

end Mlp.Props
