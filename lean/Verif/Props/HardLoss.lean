import Verif.Lemmas.Losses

/-! # Property C74: the loss of the Bayes action -/

namespace Mlp.Props
open Mlp.Util Mlp.Spec Mlp.Classif Mlp.Lemmas

/-- **C74, invalid input.**  Labels that do not fit the predictions raise AssertionError in all four losses. -/
theorem C74_reject {y : LabelVec} {p : Mat ℝ} (hp : p.Ok) (h : ¬ ClassInput y p) (M : Option (Mat ℝ)) (b : Bool) :
    hardLoss M y p = .error .assertion ∧ logLoss y p = .error .assertion ∧
    brierLoss b y p = .error .assertion ∧ sphericalLoss b y p = .error .assertion := by
  unfold hardLoss logLoss brierLoss sphericalLoss
  rw [validate_error hp h]
  exact ⟨rfl, rfl, rfl, rfl⟩

/-- **C74, invalid loss matrix.**  A loss matrix without a row for each label or without actions raises
AssertionError. -/
theorem C74_reject_matrix {y : LabelVec} {p M : Mat ℝ} (h : ClassInput y p)
    (hM : M.rows.length ≠ p.ncols ∨ M.ncols = 0) : hardLoss (some M) y p = .error .assertion := by
  unfold hardLoss
  rw [validate_ok h, ok_bind]
  simp only [Option.getD_some, pyAssert_bind]
  by_cases h1 : M.rows.length = p.ncols
  · rw [if_pos (by simpa using h1), if_neg]
    simpa using hM.resolve_left (fun h => h h1)
  · rw [if_neg (by simpa using h1)]

theorem argminLoop_spec (e : Nat → ℝ) (len : Nat) : ∀ b i : Nat, b < i → (∀ j < i, e b ≤ e j) →
    (∀ j < b, e b < e j) →
    IsFirstLeast (i + len) e (argminLoop (.fin (e b)) b i ((List.range' i len).map fun j => Flt.fin (e j))) := by
  induction len with
  | zero =>
    intro b i hb h1 h2
    exact ⟨hb, h1, h2⟩
  | succ len ih =>
    intro b i hb h1 h2
    rw [List.range'_succ, List.map_cons]
    unfold argminLoop
    simp only [Flt.isNaN_fin, Bool.false_eq_true, if_false, Flt.le_fin, decide_eq_true_eq]
    have hi : i + (len + 1) = i + 1 + len := by omega
    rw [hi]
    split
    · rename_i hle
      refine ih b (i + 1) (by omega) ?_ h2
      intro j hj
      rcases Nat.lt_succ_iff_lt_or_eq.1 hj with hj | rfl
      · exact h1 j hj
      · exact hle
    · rename_i hle
      have hlt := not_le.1 hle
      refine ih i (i + 1) (by omega) ?_ ?_
      · intro j hj
        rcases Nat.lt_succ_iff_lt_or_eq.1 hj with hj | rfl
        · exact (hlt.le).trans (h1 j hj)
        · exact le_rfl
      · intro j hj
        exact lt_of_lt_of_le hlt (h1 j hj)

theorem argmin_spec (e : Nat → ℝ) {m : Nat} (hm : 1 ≤ m) :
    ∃ a, argmin ((List.range m).map fun j => Flt.fin (e j)) = .ok a ∧ IsFirstLeast m e a := by
  obtain ⟨n, rfl⟩ : ∃ n, m = n + 1 := ⟨m - 1, by omega⟩
  rw [List.range_eq_range', List.range'_succ, List.map_cons]
  refine ⟨_, rfl, ?_⟩
  have := argminLoop_spec e n 0 1 (by omega) (by intro j hj; interval_cases j; exact le_rfl) (by omega)
  rw [Nat.add_comm 1 n] at this
  exact this

theorem isFirstLeast_unique {n : Nat} {e : Nat → ℝ} {a b : Nat} (ha : IsFirstLeast n e a) (hb : IsFirstLeast n e b) :
    a = b := by
  rcases lt_trichotomy a b with h | h | h
  · exact absurd (hb.2.2 a h) (not_lt.2 (ha.2.1 b hb.1))
  · exact h
  · exact absurd (ha.2.2 b h) (not_lt.2 (hb.2.1 a ha.1))

theorem dotRow_fin {r : List (Flt ℝ)} {m : Nat} {M : List (List ℝ)} (hr : LogProbs r) (hl : r.length = M.length)
    (hM : ∀ row ∈ M, row.length = m) :
    dotRow (r.map fexp) (finMat m M) = (List.range m).map fun a => Flt.fin (actionLoss (probs r) M a) := by
  unfold dotRow
  refine List.map_congr_left fun a ha => ?_
  have ha' : a < m := List.mem_range.1 ha
  have e1 : r.map fexp = finVec (probs r) := by
    unfold finVec probs
    rw [List.map_map]
    exact List.map_congr_left fun v hv => fexp_prob (hr v hv)
  have e2 : colAt (finMat m M) a = finVec (M.map fun row => row.getD a 0) := by
    unfold colAt finMat finVec
    rw [List.map_map, List.map_map]
    refine List.map_congr_left fun row hrow => ?_
    have hlen : a < row.length := by rw [hM row hrow]; exact ha'
    simp only [Function.comp]
    rw [getD_eq _ _ (by simpa using hlen), getD_eq _ _ hlen, List.getElem_map]
  have e3 : List.zipWith Flt.mul (finVec (probs r)) (finVec (M.map fun row => row.getD a 0)) =
      (List.zipWith (fun (x : ℝ) (row : List ℝ) => x * row.getD a 0) (probs r) M).map Flt.fin := by
    unfold finVec
    rw [List.zipWith_map, List.map_zipWith, List.zipWith_map_right]
    rfl
  rw [e1, e2, e3, Flt.sum_fin, sum_zipWith_range (probs r) M 0 [] (by rw [probs_length, hl])]
  rfl

/-- **C74.**  `hard_loss` returns for every sample the loss of the first action whose expected loss under
the predicted probabilities is least. -/
theorem C74_bayes {y : LabelVec} {p : Mat ℝ} (h : ClassInput y p) (hp : ∀ r ∈ p.rows, LogProbs r) {m : Nat}
    (hm : 1 ≤ m) {M : List (List ℝ)} (hM : M.length = p.ncols) (hMr : ∀ row ∈ M, row.length = m) :
    ∃ L, hardLoss (some (finMat m M)) y p = .ok L ∧ PerSample (fun r k v => ∃ (a : Nat) (row : List ℝ) (x : ℝ),
      IsFirstLeast m (actionLoss (probs r) M) a ∧ M[k]? = some row ∧ row[a]? = some x ∧ v = .fin x) y p L := by
  unfold hardLoss
  rw [validate_ok h, ok_bind]
  simp only [Option.getD_some, pyAssert_bind]
  rw [if_pos (by simpa [finMat] using hM), if_pos (decide_eq_true (p := 1 ≤ (finMat m M).ncols) hm)]
  have hact : ∀ r : List (Flt ℝ), ∃ a, r ∈ p.rows → argmin (dotRow (r.map fexp) (finMat m M)) = .ok a ∧
      IsFirstLeast m (actionLoss (probs r) M) a := by
    intro r
    by_cases hr : r ∈ p.rows
    · obtain ⟨a, ha⟩ := argmin_spec (actionLoss (probs r) M) hm
      refine ⟨a, fun _ => ?_⟩
      rw [dotRow_fin (hp r hr) (by rw [h.rows r hr, hM]) hMr]
      exact ha
    · exact ⟨0, fun h => absurd h hr⟩
  choose act hact using hact
  have hdec : hardLossDecision p (finMat m M) = .ok (p.rows.map act) := by
    unfold hardLossDecision dot argminRows
    rw [if_pos (by simp [expMat, finMat, hM]), ok_bind, if_neg (by simp only [finMat]; omega)]
    simp only [expMat, List.map_map]
    rw [mapM_ok_iff, List.forall₂_map_left_iff, List.forall₂_map_right_iff, List.forall₂_same]
    exact fun r hr => (hact r hr).1
  rw [hdec, ok_bind]
  have hval : ∀ (k : Nat) (a : Nat), k < M.length → a < m → ∃ (row : List ℝ) (x : ℝ), M[k]? = some row ∧ row[a]? = some x ∧
      (do let row ← pyIdx (finMat m M).rows (k : Int); pyIdx row (a : Int) : Py (Flt ℝ)) = .ok (.fin x) := by
    intro k a hk ha
    have hrow : a < M[k].length := by rw [hMr _ (List.getElem_mem hk)]; exact ha
    refine ⟨M[k], M[k][a], List.getElem?_eq_getElem hk, List.getElem?_eq_getElem hrow, ?_⟩
    have hk' : k < (finMat m M).rows.length := by simpa [finMat] using hk
    rw [pyIdx_ok hk', ok_bind]
    have e : (finMat m M).rows[k] = finVec M[k] := by simp [finMat]
    rw [e, pyIdx_ok (by simpa [finVec] using hrow)]
    simp [finVec]
  have hz : ∀ q ∈ List.zip y.vals (p.rows.map act), ∃ v, (do
      let row ← pyIdx (finMat m M).rows q.1
      pyIdx row (q.2 : Int) : Py (Flt ℝ)) = .ok v := by
    rintro ⟨k, a⟩ hq
    obtain ⟨h1, h2⟩ := List.of_mem_zip hq
    obtain ⟨g1, g2⟩ := h.range k h1
    obtain ⟨j, rfl⟩ := Int.eq_ofNat_of_zero_le g1
    obtain ⟨r, hr, rfl⟩ := List.mem_map.1 h2
    obtain ⟨_, x, _, _, e⟩ := hval j (act r) (by rw [hM]; exact_mod_cast g2) (hact r hr).2.1
    exact ⟨_, e⟩
  have hex : ∃ L, (List.zip y.vals (p.rows.map act)).mapM (fun (q : Int × Nat) => (do
      let row ← pyIdx (finMat m M).rows q.1
      pyIdx row (q.2 : Int) : Py (Flt ℝ))) = .ok L := by
    have : ∃ g : Int × Nat → Flt ℝ, ∀ q ∈ List.zip y.vals (p.rows.map act), (do
      let row ← pyIdx (finMat m M).rows q.1
      pyIdx row (q.2 : Int) : Py (Flt ℝ)) = .ok (g q) := by
      classical
      refine ⟨fun q => if hq : q ∈ List.zip y.vals (p.rows.map act) then (hz q hq).choose else .nan, ?_⟩
      intro q hq
      simp only [dif_pos hq]
      exact (hz q hq).choose_spec
    obtain ⟨g, hg⟩ := this
    exact ⟨_, mapM_eq_ok_map _ g _ hg⟩
  obtain ⟨L, hL⟩ := hex
  refine ⟨L, hL, ?_⟩
  rw [mapM_ok_iff] at hL
  refine ⟨by rw [← hL.length_eq]; simp [h.length], ?_⟩
  intro i k r hr hk
  have hz : (List.zip y.vals (p.rows.map act))[i]? = some ((k : Int), act r) := by
    rw [List.getElem?_zip_eq_some]
    exact ⟨hk, by rw [List.getElem?_map, hr]; rfl⟩
  have hrm := List.mem_of_getElem? hr
  obtain ⟨row, x, e1, e2, e3⟩ := hval k (act r) (by
    rw [hM]
    exact_mod_cast (h.range _ (List.mem_of_getElem? hk)).2) (hact r hrm).2.1
  obtain ⟨hi, ez⟩ := List.getElem?_eq_some_iff.1 hz
  have hi2 : i < L.length := by rw [← hL.length_eq]; exact hi
  have := (List.forall₂_iff_get.1 hL).2 i hi hi2
  simp only [List.get_eq_getElem, ez] at this
  rw [e3] at this
  refine ⟨L[i], List.getElem?_eq_getElem hi2, act r, row, x, (hact r hrm).2, e1, e2, ?_⟩
  rw [Except.ok.injEq] at this
  exact this.symm

/-- The matrix of the 0-1 loss. -/
def zeroOneRows (n : Nat) : List (List ℝ) :=
  (List.range n).map fun i => (List.range n).map fun j => if i = j then 0 else 1

theorem zeroOneMat_eq (n : Nat) : (zeroOneMat n : Mat ℝ) = finMat n (zeroOneRows n) := by
  unfold zeroOneMat finMat zeroOneRows finVec
  rw [List.map_map]
  congr 1
  refine List.map_congr_left fun i _ => ?_
  simp only [Function.comp, List.map_map]
  refine List.map_congr_left fun j _ => ?_
  simp only [Function.comp]
  split <;> simp

theorem zeroOne_action {q : List ℝ} {n a : Nat} (hq : q.length = n) (ha : a < n) :
    actionLoss q (zeroOneRows n) a = q.sum - pr q a := by
  unfold actionLoss
  have : ∀ k ∈ Finset.range q.length, pr q k * ((zeroOneRows n).getD k []).getD a 0 =
      pr q k - if k = a then pr q k else 0 := by
    intro k hk
    have hk' : k < n := by rw [← hq]; exact Finset.mem_range.1 hk
    have e : ((zeroOneRows n).getD k []).getD a 0 = if k = a then 0 else 1 := by
      unfold zeroOneRows
      rw [getD_eq ((List.range n).map _) [] (by simpa using hk'), List.getElem_map, getD_eq _ _ (by simpa using ha),
        List.getElem_map]
      simp only [List.getElem_range]
    rw [e]
    split <;> simp
  rw [Finset.sum_congr rfl this, Finset.sum_sub_distrib, ← sum_range, Finset.sum_ite_eq' (Finset.range q.length) a,
    if_pos (by rw [Finset.mem_range, hq]; exact ha)]

/-- **C74, zero-one loss.**  Without a loss matrix the loss is 0 if the true label is the first most
probable label and 1 otherwise. -/
theorem C74_zero_one {y : LabelVec} {p : Mat ℝ} (h : ClassInput y p) (hp : ∀ r ∈ p.rows, LogProbs r) :
    ∃ L, hardLoss none y p = .ok L ∧ PerSample (fun r k v =>
      (IsFirstLeast p.ncols (fun j => -pr (probs r) j) k ∧ v = .fin 0) ∨
      (¬ IsFirstLeast p.ncols (fun j => -pr (probs r) j) k ∧ v = .fin 1)) y p L := by
  have e : hardLoss none y p = hardLoss (some (finMat p.ncols (zeroOneRows p.ncols))) y p := by
    unfold hardLoss
    rw [validate_ok h, ok_bind, ok_bind]
    simp only [Option.getD_none, Option.getD_some, zeroOneMat_eq]
  obtain ⟨L, hL, hs⟩ := C74_bayes h hp h.labels (M := zeroOneRows p.ncols) (by simp [zeroOneRows]) (by
    intro row hrow
    simp only [zeroOneRows, List.mem_map] at hrow
    obtain ⟨i, -, rfl⟩ := hrow
    simp)
  refine ⟨L, e.trans hL, ?_⟩
  refine perSample_mono hs ?_
  rintro r hr k v ⟨a, row, x, ha, hk, hx, rfl⟩
  have hlen : (probs r).length = p.ncols := by rw [probs_length, h.rows r hr]
  have hbest : IsFirstLeast p.ncols (fun j => -pr (probs r) j) a := by
    obtain ⟨h1, h2, h3⟩ := ha
    refine ⟨h1, fun b hb => ?_, fun b hb => ?_⟩
    · have := h2 b hb
      rw [zeroOne_action hlen h1, zeroOne_action hlen hb] at this
      simp only
      linarith
    · have := h3 b hb
      rw [zeroOne_action hlen h1, zeroOne_action hlen (hb.trans h1)] at this
      simp only
      linarith
  have hx' : x = if k = a then 0 else 1 := by
    unfold zeroOneRows at hk
    rw [List.getElem?_map, Option.map_eq_some_iff] at hk
    obtain ⟨k', hk', rfl⟩ := hk
    obtain ⟨_, rfl⟩ := List.getElem?_eq_some_iff.1 hk'
    rw [List.getElem?_map, Option.map_eq_some_iff] at hx
    obtain ⟨a', ha', rfl⟩ := hx
    obtain ⟨_, rfl⟩ := List.getElem?_eq_some_iff.1 ha'
    simp
  by_cases hka : k = a
  · left
    subst hka
    exact ⟨hbest, by rw [hx', if_pos rfl]⟩
  · right
    exact ⟨fun hc => hka (isFirstLeast_unique hc hbest), by rw [hx', if_neg hka]⟩

/-! ### Examples -/

/-- Three labels and two samples; the second sample has probability 0 for its label. -/
theorem exampleClass : ClassInput ⟨'i', [2, 0]⟩ (⟨3, [[.fin 0, .fin 1, .fin 1], [.ninf, .fin 0, .ninf]]⟩ : Mat ℝ) :=
  ⟨Or.inr rfl, by simp, by simp, rfl, by simp, by simp⟩

theorem exampleClass_ok : ∀ r ∈ (⟨3, [[.fin 0, .fin 1, .fin 1], [.ninf, .fin 0, .ninf]]⟩ : Mat ℝ).rows,
    LogProbs r := by
  simp [LogProbs]

/-- Of the two labels with equal probability the first is predicted, so both samples have loss 1. -/
example : ∃ L, hardLoss none ⟨'i', [2, 0]⟩ ⟨3, [[.fin 0, .fin 1, .fin 1], [.ninf, .fin 0, .ninf]]⟩ = .ok L ∧
    L = [.fin 1, .fin 1] := by
  obtain ⟨L, h, hs⟩ := C74_zero_one exampleClass exampleClass_ok
  refine ⟨L, h, ?_⟩
  obtain ⟨v, h0, hv⟩ := hs.2 0 2 _ rfl rfl
  obtain ⟨w, h1, hw⟩ := hs.2 1 0 _ rfl rfl
  have n0 : ¬ IsFirstLeast 3 (fun j => -pr (probs [.fin 0, .fin 1, .fin 1]) j) 2 := by
    rintro ⟨-, -, h⟩
    have := h 1 (by norm_num)
    simp [pr, probs, prob] at this
  have n1 : ¬ IsFirstLeast 3 (fun j => -pr (probs [.ninf, .fin 0, .ninf]) j) 0 := by
    rintro ⟨-, h, -⟩
    have := h 1 (by norm_num)
    simp [pr, probs, prob] at this
    norm_num at this
  have hv := hv.resolve_left fun h => n0 h.1
  have hw := hw.resolve_left fun h => n1 h.1
  have hl := hs.1
  match L, hl with
  | [a, b], _ =>
    simp at h0 h1
    rw [h0, h1, hv.2, hw.2]

/-- A loss matrix with two labels and three actions, the last of which is "abstain". -/
example : ∃ L, hardLoss (some (finMat 3 [[0, 4, 1], [4, 0, 1]])) ⟨'b', [1]⟩ ⟨2, [[.fin 0, .fin 0]]⟩ = .ok L ∧
    L = [.fin 1] := by
  obtain ⟨L, h, hs⟩ := C74_bayes (y := ⟨'b', [1]⟩) (p := ⟨2, [[.fin 0, .fin 0]]⟩) (m := 3)
    (M := [[0, 4, 1], [4, 0, 1]]) ⟨Or.inl rfl, by simp, by simp, rfl, by simp, by simp⟩ (by simp [LogProbs])
    (by norm_num) rfl (by simp)
  refine ⟨L, h, ?_⟩
  obtain ⟨v, h0, a, row, x, ha, hk, hx, rfl⟩ := hs.2 0 1 _ rfl rfl
  have : IsFirstLeast 3 (actionLoss (probs [.fin 0, .fin 0]) [[0, 4, 1], [4, 0, 1]]) 2 := by
    refine ⟨by norm_num, ?_, ?_⟩
    · intro b hb
      interval_cases b <;> simp [actionLoss, probs, prob, pr, Finset.sum_range_succ] <;> norm_num
    · intro b hb
      interval_cases b <;> simp [actionLoss, probs, prob, pr, Finset.sum_range_succ] <;> norm_num
  obtain rfl := isFirstLeast_unique ha this
  simp at hk
  subst hk
  simp at hx
  subst hx
  have hl := hs.1
  match L, hl with
  | [b], _ =>
    simp at h0
    rw [h0]

end Mlp.Props
