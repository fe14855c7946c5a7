import Verif.Props.LossRange
import Verif.Props.HardLoss

/-! # Property C120: hard losses in floating point arithmetic -/

namespace Mlp.Props
open Mlp.Util Mlp.Frame Mlp.PerfR Mlp.PaperR Mlp.CurveR Mlp.LossR Mlp.Spec Mlp.Lemmas Mlp.Round Mlp.Classif

variable {L : Lib ℝ} {dotR : List ℝ → List ℝ → ℝ}

/-- The computed expected loss of action `a`. -/
noncomputable def actionLossR (L : Lib ℝ) (dotR : List ℝ → List ℝ → ℝ) (r : List (Flt ℝ)) (M : List (List ℝ)) (a : Nat) : ℝ :=
  dotR (r.map (probR L)) (M.map fun row => row.getD a 0)

theorem dotFR_row {r : List (Flt ℝ)} {m : Nat} {M : List (List ℝ)} (hr : LogProbs r) (hM : ∀ row ∈ M, row.length = m) :
    ((List.range m).map fun j => dotFR dotR (r.map (fexpR L)) (colAt (finMat m M) j)) =
      (List.range m).map fun a => Flt.fin (actionLossR L dotR r M a) := by
  refine List.map_congr_left fun a ha => ?_
  have ha' : a < m := List.mem_range.1 ha
  have e1 : r.map (fexpR L) = finVec (r.map (probR L)) := by
    unfold finVec
    rw [List.map_map]
    exact List.map_congr_left fun v hv => fexpR_prob (hr v hv)
  have e2 : colAt (finMat m M) a = finVec (M.map fun row => row.getD a 0) := by
    unfold colAt finMat finVec
    rw [List.map_map, List.map_map]
    refine List.map_congr_left fun row hrow => ?_
    have hlen : a < row.length := by rw [hM row hrow]; exact ha'
    simp only [Function.comp]
    rw [getD_eq _ _ (by simpa using hlen), getD_eq _ _ hlen, List.getElem_map]
  have hfin : ∀ xs : List ℝ, (finVec xs).all (fun v => v.isFinite) = true := fun xs => (Flt.all_finite_iff _).2 ⟨xs, rfl⟩
  rw [e1, e2, dotFR, if_pos (by rw [hfin, hfin]; rfl), numbers_fin, numbers_fin]
  rfl

/-- **C120, hard loss.**  `hard_loss` returns for every sample the loss of the first action whose computed expected loss is least: one
of the entries of the loss matrix in the row of the true label, unchanged. -/
theorem C120_hard {y : LabelVec} {p : Mat ℝ} (h : ClassInput y p) (hp : ∀ r ∈ p.rows, LogProbs r) {m : Nat}
    (hm : 1 ≤ m) {M : List (List ℝ)} (hM : M.length = p.ncols) (hMr : ∀ row ∈ M, row.length = m) :
    ∃ l, hardLossR L dotR (some (finMat m M)) y p = .ok l ∧ PerSample (fun r k v => ∃ (a : Nat) (row : List ℝ) (x : ℝ),
      IsFirstLeast m (fun b => dotR (r.map (probR L)) (M.map fun row => row.getD b 0)) a ∧ M[k]? = some row ∧ row[a]? = some x ∧
        v = .fin x) y p l := by
  unfold hardLossR
  rw [validate_ok h, ok_bind]
  simp only [Option.getD_some, pyAssert_bind]
  rw [if_pos (by simpa [finMat] using hM), if_pos (decide_eq_true (p := 1 ≤ (finMat m M).ncols) hm)]
  have hact : ∀ r : List (Flt ℝ), ∃ a, r ∈ p.rows → argmin ((List.range (finMat m M).ncols).map fun j => dotFR dotR (r.map (fexpR L)) (Classif.colAt (finMat m M) j)) = .ok a ∧
      IsFirstLeast m (actionLossR L dotR r M) a := by
    intro r
    by_cases hr : r ∈ p.rows
    · obtain ⟨a, ha⟩ := argmin_spec (actionLossR L dotR r M) hm
      refine ⟨a, fun _ => ?_⟩
      rw [show (finMat m M).ncols = m from rfl, dotFR_row (hp r hr) hMr]
      exact ha
    · exact ⟨0, fun h => absurd h hr⟩
  choose act hact using hact
  have hdec : hardLossDecisionR L dotR p (finMat m M) = .ok (p.rows.map act) := by
    unfold hardLossDecisionR dotMatR argminRows
    simp only []
    rw [if_pos (by simp [finMat, hM]), ok_bind, if_neg (by simp only [finMat]; omega)]
    simp only [List.map_map]
    rw [mapM_ok_iff, List.forall₂_map_left_iff, List.forall₂_map_right_iff, List.forall₂_same]
    exact fun r hr => (hact r hr).1
  rw [hdec, ok_bind]
  have hval : ∀ (k : Nat) (a : Nat), k < M.length → a < m → ∃ (row : List ℝ) (x : ℝ), M[k]? = some row ∧ row[a]? = some x ∧
      (do let row ← pyIdx (finMat m M).rows (k : Int); pyIdx row (a : Int) : Py (Flt ℝ)) = .ok (.fin x) := by
    intro k a hk ha
    have hrow : a < M[k].length := by rw [hMr _ (List.getElem_mem hk)]; exact ha
    refine ⟨M[k], M[k][a], List.getElem?_eq_getElem hk, List.getElem?_eq_getElem hrow, ?_⟩
    have hk' : k < (finMat m M).rows.length := by simpa [finMat] using hk
    rw [pyIdx_ok hk', ok_bind]
    have e : (finMat m M).rows[k] = finVec M[k] := by simp [finMat]
    rw [e, pyIdx_ok (by simpa [finVec] using hrow)]
    simp [finVec]
  have hz : ∀ q ∈ List.zip y.vals (p.rows.map act), ∃ v, (do
      let row ← pyIdx (finMat m M).rows q.1
      pyIdx row (q.2 : Int) : Py (Flt ℝ)) = .ok v := by
    rintro ⟨k, a⟩ hq
    obtain ⟨h1, h2⟩ := List.of_mem_zip hq
    obtain ⟨g1, g2⟩ := h.range k h1
    obtain ⟨j, rfl⟩ := Int.eq_ofNat_of_zero_le g1
    obtain ⟨r, hr, rfl⟩ := List.mem_map.1 h2
    obtain ⟨_, x, _, _, e⟩ := hval j (act r) (by rw [hM]; exact_mod_cast g2) (hact r hr).2.1
    exact ⟨_, e⟩
  have hex : ∃ l, (List.zip y.vals (p.rows.map act)).mapM (fun (q : Int × Nat) => (do
      let row ← pyIdx (finMat m M).rows q.1
      pyIdx row (q.2 : Int) : Py (Flt ℝ))) = .ok l := by
    have : ∃ g : Int × Nat → Flt ℝ, ∀ q ∈ List.zip y.vals (p.rows.map act), (do
      let row ← pyIdx (finMat m M).rows q.1
      pyIdx row (q.2 : Int) : Py (Flt ℝ)) = .ok (g q) := by
      classical
      refine ⟨fun q => if hq : q ∈ List.zip y.vals (p.rows.map act) then (hz q hq).choose else .nan, ?_⟩
      intro q hq
      simp only [dif_pos hq]
      exact (hz q hq).choose_spec
    obtain ⟨g, hg⟩ := this
    exact ⟨_, mapM_eq_ok_map _ g _ hg⟩
  obtain ⟨l, hL⟩ := hex
  refine ⟨l, hL, ?_⟩
  rw [mapM_ok_iff] at hL
  refine ⟨by rw [← hL.length_eq]; simp [h.length], ?_⟩
  intro i k r hr hk
  have hz : (List.zip y.vals (p.rows.map act))[i]? = some ((k : Int), act r) := by
    rw [List.getElem?_zip_eq_some]
    exact ⟨hk, by rw [List.getElem?_map, hr]; rfl⟩
  have hrm := List.mem_of_getElem? hr
  obtain ⟨row, x, e1, e2, e3⟩ := hval k (act r) (by
    rw [hM]
    exact_mod_cast (h.range _ (List.mem_of_getElem? hk)).2) (hact r hrm).2.1
  obtain ⟨hi, ez⟩ := List.getElem?_eq_some_iff.1 hz
  have hi2 : i < l.length := by rw [← hL.length_eq]; exact hi
  have := (List.forall₂_iff_get.1 hL).2 i hi hi2
  simp only [List.get_eq_getElem, ez] at this
  rw [e3] at this
  refine ⟨l[i], List.getElem?_eq_getElem hi2, act r, row, x, (hact r hrm).2, e1, e2, ?_⟩
  rw [Except.ok.injEq] at this
  exact this.symm


theorem hardR_none {y : LabelVec} {p : Mat ℝ} (h : ClassInput y p) :
    hardLossR L dotR none y p = hardLossR L dotR (some (finMat p.ncols (zeroOneRows p.ncols))) y p := by
  unfold hardLossR
  rw [validate_ok h, ok_bind, ok_bind]
  simp only [Option.getD_none, Option.getD_some, zeroOneMat_eq]

theorem zeroOneRows_rows {n : Nat} : ∀ row ∈ zeroOneRows n, row.length = n := by
  intro row hrow
  simp only [zeroOneRows, List.mem_map] at hrow
  obtain ⟨i, -, rfl⟩ := hrow
  simp

theorem zeroOneRows_entry {n k a : Nat} {row : List ℝ} {x : ℝ} (hk : (zeroOneRows n)[k]? = some row) (hx : row[a]? = some x) :
    x = if k = a then 0 else 1 := by
  unfold zeroOneRows at hk
  rw [List.getElem?_map, Option.map_eq_some_iff] at hk
  obtain ⟨k', hk', rfl⟩ := hk
  obtain ⟨_, rfl⟩ := List.getElem?_eq_some_iff.1 hk'
  rw [List.getElem?_map, Option.map_eq_some_iff] at hx
  obtain ⟨a', ha', rfl⟩ := hx
  obtain ⟨_, rfl⟩ := List.getElem?_eq_some_iff.1 ha'
  simp

/-- **C120, zero-one loss.**  Without a loss matrix every loss is exactly 0 or exactly 1, and at most one label would get 0: the label whose
computed probability of error is least. -/
theorem C120_zero_one {y : LabelVec} {p : Mat ℝ} (h : ClassInput y p) (hp : ∀ r ∈ p.rows, LogProbs r) :
    ∃ l, hardLossR L dotR none y p = .ok l ∧ PerSample (fun r k v => ∃ a : Nat,
      IsFirstLeast p.ncols (fun b => dotR (r.map (probR L)) ((List.range p.ncols).map fun (i : Nat) => if i = b then 0 else 1)) a ∧
        v = .fin (if k = a then 0 else 1)) y p l := by
  rw [hardR_none h]
  obtain ⟨l, hl, hs⟩ := C120_hard (L := L) (dotR := dotR) h hp h.labels (M := zeroOneRows p.ncols) (by simp [zeroOneRows]) zeroOneRows_rows
  refine ⟨l, hl, perSample_mono hs ?_⟩
  rintro r hr k v ⟨a, row, x, ha, hk, hx, rfl⟩
  refine ⟨a, ?_, by rw [zeroOneRows_entry hk hx]⟩
  have e : ∀ b < p.ncols, ((zeroOneRows p.ncols).map fun row => row.getD b 0) =
      (List.range p.ncols).map fun (i : Nat) => if i = b then (0 : ℝ) else 1 := by
    intro b hb
    unfold zeroOneRows
    rw [List.map_map]
    refine List.map_congr_left fun i _ => ?_
    simp only [Function.comp]
    rw [getD_eq _ _ (by simpa using hb)]
    simp
  obtain ⟨h1, h2, h3⟩ := ha
  refine ⟨h1, fun b hb => ?_, fun b hb => ?_⟩
  · have := h2 b hb
    simp only at this
    rwa [e a h1, e b hb] at this
  · have := h3 b hb
    simp only at this
    rwa [e a h1, e b (hb.trans h1)] at this

/-- **C120, decisions are nearly optimal.**  If inner products of vectors with one entry for each label have a relative error of at most `g`,
the action whose loss is charged has, under the computed probabilities, an exact expected loss that exceeds that of any other action by at most
`g` times the expected absolute losses of the two actions. -/
theorem C120_near_optimal {y : LabelVec} {p : Mat ℝ} (h : ClassInput y p) (hp : ∀ r ∈ p.rows, LogProbs r) {m : Nat}
    (hm : 1 ≤ m) {M : List (List ℝ)} (hM : M.length = p.ncols) (hMr : ∀ row ∈ M, row.length = m) {g : ℝ}
    (hg : DotError g p.ncols dotR) :
    ∃ l, hardLossR L dotR (some (finMat m M)) y p = .ok l ∧ PerSample (fun r k v => ∃ (a : Nat) (row : List ℝ) (x : ℝ),
      a < m ∧ M[k]? = some row ∧ row[a]? = some x ∧ v = .fin x ∧ ∀ b < m,
        actionLoss (r.map (probR L)) M a ≤ actionLoss (r.map (probR L)) M b +
          g * (actionLoss ((r.map (probR L)).map abs) (M.map fun row => row.map abs) a +
            actionLoss ((r.map (probR L)).map abs) (M.map fun row => row.map abs) b)) y p l := by
  obtain ⟨l, hl, hs⟩ := C120_hard (L := L) (dotR := dotR) h hp hm hM hMr
  refine ⟨l, hl, perSample_mono hs ?_⟩
  rintro r hr k v ⟨a, row, x, ha, hk, hx, rfl⟩
  refine ⟨a, row, x, ha.1, hk, hx, rfl, fun b hb => ?_⟩
  have key : ∀ c < m, |dotR (r.map (probR L)) (M.map fun row => row.getD c 0) - actionLoss (r.map (probR L)) M c| ≤
      g * actionLoss ((r.map (probR L)).map abs) (M.map fun row => row.map abs) c := by
    intro c hc
    have hlen : (r.map (probR L)).length = p.ncols := by rw [List.length_map, h.rows r hr]
    have := hg (r.map (probR L)) (M.map fun row => row.getD c 0) hlen (by rw [List.length_map, hM])
    have e1 : ∀ i ∈ Finset.range p.ncols, (M.map fun row => row.getD c 0).getD i 0 = (M.getD i []).getD c 0 := by
      intro i hi
      have hi' : i < M.length := by rw [hM]; exact Finset.mem_range.1 hi
      rw [getD_eq _ _ (by simpa using hi'), getD_eq _ _ hi', List.getElem_map]
    have e2 : ∑ i ∈ Finset.range p.ncols, (r.map (probR L)).getD i 0 * (M.map fun row => row.getD c 0).getD i 0 =
        actionLoss (r.map (probR L)) M c := by
      unfold actionLoss
      rw [hlen]
      exact Finset.sum_congr rfl fun i hi => by rw [e1 i hi]; rfl
    have e3 : ∑ i ∈ Finset.range p.ncols, |(r.map (probR L)).getD i 0 * (M.map fun row => row.getD c 0).getD i 0| =
        actionLoss ((r.map (probR L)).map abs) (M.map fun row => row.map abs) c := by
      unfold actionLoss
      rw [List.length_map, hlen]
      refine Finset.sum_congr rfl fun i hi => ?_
      have hi' : i < M.length := by rw [hM]; exact Finset.mem_range.1 hi
      have hi2 : i < (r.map (probR L)).length := by rw [hlen]; exact Finset.mem_range.1 hi
      have hc' : c < M[i].length := by rw [hMr _ (List.getElem_mem hi')]; exact hc
      rw [e1 i hi, abs_mul, pr, getD_eq _ _ hi2, getD_eq _ _ hi', getD_eq _ _ hc', getD_eq _ _ (by simpa using hi2),
        getD_eq (M.map fun row => row.map abs) [] (k := i) (by simpa using hi')]
      simp only [List.getElem_map]
      rw [getD_eq _ _ (by simpa using hc'), List.getElem_map]
    rwa [e2, e3] at this
  have h1 := _root_.abs_le.1 (key a ha.1)
  have h2 := _root_.abs_le.1 (key b hb)
  have h3 := ha.2.1 b hb
  simp only at h3
  rw [mul_add]
  linarith

theorem map_probR_certain (hE : GoodExpLog L) {r : List (Flt ℝ)} {j : Nat} (hc : Certain r j) :
    ∀ i < r.length, (r.map (probR L)).getD i 0 = if i = j then 1 else 0 := by
  intro i hi
  rw [getD_eq _ _ (by simpa using hi), List.getElem_map, ← getD_eq r .nan hi, hc.2 i hi]
  split_ifs
  · exact hE.exp_zero
  · rfl

/-- **C120, zero-one loss of certain predictions.**  Certainty of the true label costs exactly 0, certainty of another label exactly 1, provided
that inner products have a relative error below 1. -/
theorem C120_zero_one_certain (hE : GoodExpLog L) {y : LabelVec} {p : Mat ℝ} (h : ClassInput y p)
    (hp : ∀ r ∈ p.rows, ∃ j, Certain r j) {g : ℝ} (hg1 : g < 1) (hg : DotError g p.ncols dotR) :
    ∃ l, hardLossR L dotR none y p = .ok l ∧ PerSample (fun r k v => (Certain r k → v = .fin 0) ∧
      (CertainlyNot r k → v = .fin 1)) y p l := by
  obtain ⟨l, hl, hs⟩ := C120_zero_one (L := L) (dotR := dotR) h
    fun r hr => atMostZero_logProbs (certain_logProbs (hp r hr).choose_spec)
  refine ⟨l, hl, perSample_mono hs ?_⟩
  rintro r hr k v ⟨a, ha, rfl⟩
  have hlen := h.rows r hr
  have key : ∀ j, Certain r j → a = j := by
    intro j hj
    have hjn : j < p.ncols := by rw [← hlen]; exact hj.1
    by_contra hne
    have e : ∀ b < p.ncols, ∀ i ∈ Finset.range p.ncols, (r.map (probR L)).getD i 0 *
        ((List.range p.ncols).map fun (i : Nat) => if i = b then (0 : ℝ) else 1).getD i 0 = if i = j then (if j = b then 0 else 1) else 0 := by
      intro b hb i hi
      have hi' := Finset.mem_range.1 hi
      rw [map_probR_certain hE hj i (by rw [hlen]; exact hi'), getD_eq _ _ (by simpa using hi'), List.getElem_map, List.getElem_range]
      by_cases hij : i = j
      · simp [hij]
      · simp [hij]
    have hv : ∀ b < p.ncols, |dotR (r.map (probR L)) ((List.range p.ncols).map fun (i : Nat) => if i = b then (0 : ℝ) else 1) -
        (if j = b then 0 else 1)| ≤ g * (if j = b then 0 else 1) := by
      intro b hb
      have := hg (r.map (probR L)) ((List.range p.ncols).map fun (i : Nat) => if i = b then (0 : ℝ) else 1) (by rw [List.length_map, hlen])
        (by simp)
      rw [Finset.sum_congr rfl (e b hb), Finset.sum_congr rfl (fun i hi => congrArg abs (e b hb i hi)),
        Finset.sum_ite_eq' (Finset.range p.ncols) j, if_pos (Finset.mem_range.2 hjn)] at this
      have e2 : ∑ i ∈ Finset.range p.ncols, |if i = j then (if j = b then (0 : ℝ) else 1) else 0| = if j = b then 0 else 1 := by
        have : ∀ i ∈ Finset.range p.ncols, |if i = j then (if j = b then (0 : ℝ) else 1) else 0| =
            if i = j then (if j = b then (0 : ℝ) else 1) else 0 := by
          intro i _
          split_ifs <;> simp
        rw [Finset.sum_congr rfl this, Finset.sum_ite_eq' (Finset.range p.ncols) j, if_pos (Finset.mem_range.2 hjn)]
      rwa [e2] at this
    have h1 := hv a ha.1
    have h2 := hv j hjn
    rw [if_neg (Ne.symm hne)] at h1
    rw [if_pos rfl] at h2
    have h3 := ha.2.1 j hjn
    simp only at h3
    have h4 := _root_.abs_le.1 h1
    have h5 := _root_.abs_le.1 h2
    linarith
  constructor
  · intro hc
    rw [if_pos (key k hc).symm]
  · rintro ⟨j, hj, hc⟩
    rw [if_neg (by rw [key j hc]; exact hj.symm)]

end Mlp.Props
