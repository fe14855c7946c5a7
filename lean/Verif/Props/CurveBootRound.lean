import Verif.Props.AreaRound
import Verif.Spec.CurveBootRound

/-!
# Property C115: `curve_boot` in floating point arithmetic

What it returns, that it succeeds for curves from 0 to 1, and that a method compared with itself gets p-value 1 and error bar 0.
-/

set_option linter.unusedSectionVars false

namespace Mlp.Props
open Mlp.PerfR Mlp.Perf Mlp.BootR Mlp.Boot Mlp.Util Mlp.Spec Mlp.Lemmas Mlp.CurveR Mlp.Classif Mlp.Frame Mlp.Round

section
variable {K : Type} [Field K] [LinearOrder K] [IsStrictOrderedRing K] [FloorRing K] {rnd : K → K} {sumR : List K → K}

/-! ### Result -/

theorem checkCurveR_ok {r : Curve K × List (Flt K)} {g : Option (List (Flt K))} {c : Curve K}
    (h : checkCurveR rnd r g = .ok c) : c = r.1 := by
  unfold checkCurveR at h
  simp only [bind_ok_iff, exists_unit, pyAssert_eq_ok, pure_eq_ok, Except.ok.injEq] at h
  exact h.2.2.2.2.2.2.symm

theorem interpRowsR_ok_iff (other : Interp K) (g : List (Flt K)) (c : Curve K) (Y : List (List (Flt K))) :
    interpRowsR rnd other g c = .ok Y ↔
      List.Forall₂ (fun xy row => interp1dR rnd other g xy.1 xy.2 c.kind = .ok row) (List.zip c.x.rows c.y.rows) Y := by
  unfold interpRowsR
  exact mapM_ok_iff _ _ _

theorem errorBarR_ok {boot : List (Flt K)} {orig conf EB : Flt K} (h : errorBarR rnd boot orig conf = .ok EB) :
    ∃ LB UB, percentileR rnd boot conf = .ok (LB, UB) ∧
      EB = Flt.fmax (rF rnd (UB.sub orig)) (rF rnd (orig.sub LB)) := by
  unfold errorBarR at h
  simp only [bind_ok_iff, exists_unit, pyAssert_eq_ok, pure_eq_ok, Except.ok.injEq] at h
  obtain ⟨p, h1, -, -, rfl⟩ := h
  exact ⟨p.1, p.2, h1, rfl⟩

theorem percentileR_conf {boot : List (Flt K)} {conf : Flt K} {b : Flt K × Flt K} (h : percentileR rnd boot conf = .ok b) :
    NoNaN boot ∧ ∃ c : K, conf = .fin c ∧ 0 < c ∧ c < 1 := by
  unfold percentileR at h
  simp only [bind_ok_iff, exists_unit, pyAssert_eq_ok, Bool.not_eq_true'] at h
  obtain ⟨h1, q, h2, -⟩ := h
  refine ⟨any_isNaN.1 h1, ?_⟩
  cases conf with
  | fin c =>
    simp only [confidenceToPercentilesR, bind_ok_iff, exists_unit, pyAssert_eq_ok, Bool.and_eq_true, decide_eq_true_eq] at h2
    exact ⟨c, rfl, h2.1⟩
  | _ => cases h2

theorem minusRefR_eq (boot : List (Flt K)) (r : Ref K) :
    minusRefR rnd boot r = List.zipWith (fun a b => rF rnd (Flt.sub a b)) boot (refVec boot.length r) := by
  cases r with
  | paired r => rfl
  | scalar r =>
    unfold minusRefR refVec
    induction boot with
    | nil => rfl
    | cons a l ih => simp only [List.map_cons, List.length_cons, List.replicate_succ, List.zipWith_cons_cons, ih]

theorem significanceR_vec {boot : List (Flt K)} (hne : boot ≠ []) (r : Ref K) :
    significanceR rnd boot r = significanceR rnd boot (.paired (refVec boot.length r)) := by
  cases r with
  | paired r => rfl
  | scalar r =>
    have hn : boot.length ≠ 0 := by simpa using hne
    unfold significanceR refVec Ref.broadcast
    simp only [List.length_replicate, if_true]
    have : (List.replicate boot.length r).any (fun v => v.isNaN) = r.isNaN := by
      cases hb : boot.length with
      | zero => exact absurd hb hn
      | succ k =>
        rw [Bool.eq_iff_iff, List.any_eq_true]
        constructor
        · rintro ⟨v, hv, h⟩
          rw [← List.eq_of_mem_replicate hv]; exact h
        · exact fun h => ⟨r, by simp, h⟩
    simp only [this]

theorem significanceR_ref (hr : FloatRounding rnd) {boot : List (Flt K)} {r : Ref K} {p : Flt K} (hne : boot ≠ [])
    (h : significanceR rnd boot r = .ok p) :
    (refVec boot.length r).length = boot.length ∧ NoNaN boot ∧ NoNaN (refVec boot.length r) ∧
      ∃ v : K, p = .fin v ∧ 0 ≤ v ∧ v ≤ 1 ∧
      v = min 1 (rnd (2 * rnd (min (((boot.zip (refVec boot.length r)).countP fun q => decide (q.1 ≤ q.2) : Nat) : K)
        ((boot.zip (refVec boot.length r)).countP fun q => decide (q.2 ≤ q.1) : Nat) / (boot.length : K)))) := by
  rw [significanceR_vec hne] at h
  have hl : (refVec boot.length r).length = boot.length := by
    by_contra hc
    unfold significanceR Ref.broadcast at h
    simp only [if_neg hc] at h
    cases h
  have hnn : NoNaN boot ∧ NoNaN (refVec boot.length r) := by
    unfold significanceR Ref.broadcast at h
    simp only [if_pos hl, bind_ok_iff, exists_unit, pyAssert_eq_ok, Bool.not_eq_true'] at h
    exact ⟨any_isNaN.1 h.1, any_isNaN.1 h.2.1⟩
  refine ⟨hl, hnn.1, hnn.2, ?_⟩
  obtain ⟨v, h1, h2, h3, h4⟩ := C107_paired hr.toMonoRounding hne hl hnn.1 hnn.2
  rw [h] at h1
  exact ⟨v, Except.ok.inj h1, h2, h3, h4⟩

theorem refAreasR_ok {f : CurveF K} {y : List Bool} {W : Mat K} {nBoot : Nat} {ref : RefArg K} {r : Ref K × Flt K}
    (h : refAreasR rnd sumR f y W (nBoot : Int) ref = .ok r) :
    RefAreasOfR rnd sumR f y W nBoot ref (refVec nBoot r.1) r.2 := by
  cases ref with
  | value v =>
    unfold refAreasR at h
    cases h
    exact ⟨rfl, rfl⟩
  | preds q =>
    unfold refAreasR at h
    simp only [bind_ok_iff, exists_unit, pyAssert_eq_ok, decide_eq_true_eq, pure_eq_ok, Except.ok.injEq,
      unpackOne_ok_iff] at h
    obtain ⟨cb0, h1, cb, h2, ab, h3, h4, c0, h5, c, h6, a, h7, a', h8, rfl⟩ := h
    have e1 := checkCurveR_ok h2
    have e2 := checkCurveR_ok h6
    subst e1 e2 h8
    exact ⟨_, isPosScore_colAt q, ⟨cb0.1, cb0.2, h1, h3⟩, by exact_mod_cast h4, ⟨c0.1, c0.2, h5, h7⟩⟩

theorem bootWeightsR_mat {N : Nat} {nBoot : Int} {ε : K} {counts : List (List Nat)} {w : List (List K)}
    (h : bootWeights (N : Int) nBoot ε counts = .ok w) :
    w = countRows ε counts ∧ (counts.length : Int) = nBoot ∧ ∀ row ∈ counts, row.length = N := by
  unfold bootWeights at h
  simp only [bind_ok_iff, exists_unit, pyAssert_eq_ok, decide_eq_true_eq, pure_eq_ok, Except.ok.injEq, Bool.and_eq_true,
    List.all_eq_true, List.length_map] at h
  obtain ⟨-, -, ⟨h3, h4⟩, rfl⟩ := h
  refine ⟨rfl, h3, fun row hrow => ?_⟩
  have := h4 _ (List.mem_map_of_mem hrow)
  simpa using this

/-- **C115, result.**  What `curve_boot` returns in floating point arithmetic, for any curve function: the estimate is the
computed area of the curve without weights; error bar and p-value come from the computed areas of the curves with the bootstrap weights
(0 becomes the float next to `1e-10`) and from those of the reference with the same weights; each row of the table has a grid
point, the value of the curve and the percentiles of the values of the bootstrapped curves there. -/
theorem C115_result (hr : FloatRounding rnd) {other : Interp K} {y : LabelVec} {p : Mat K} {ref : RefArg K} {f : CurveF K}
    {xGrid : Option (List (Flt K))} {nBoot : Int} {pairwise : Bool} {conf : Flt K} {counts : List (List Nat)}
    {auc EB pval : Flt K} {rows : List (CurveRow K)}
    (h : curveBootR rnd sumR other y p ref f xGrid nBoot pairwise conf counts = .ok ((auc, EB, pval), rows))
    {s : List (Flt K)} (hs : IsPosScore p s) {W : Mat K}
    (hW : W = finMat p.rows.length (countRows (rnd (1 / 10000000000)) counts)) :
    ∃ (n : Nat) (grid Y0 : List (Flt K)) (A RA : List (Flt K)) (R0 : Flt K) (Y : List (List (Flt K))),
      nBoot = n ∧ 1 ≤ n ∧ counts.length = n ∧ (∀ row ∈ counts, row.length = p.rows.length) ∧
      (xGrid = some grid ∨ xGrid = none ∧ grid = defaultGridR rnd) ∧
      AreaOfR rnd sumR f (boolLabels y) s none [auc] ∧ CurveAtR rnd other f (boolLabels y) s none grid [Y0] ∧
      Y0.length = grid.length ∧
      AreaOfR rnd sumR f (boolLabels y) s (some W) A ∧ A.length = n ∧ NoNaN A ∧
      CurveAtR rnd other f (boolLabels y) s (some W) grid Y ∧
      Y.length = n ∧ (∀ row ∈ Y, row.length = grid.length) ∧
      RefAreasOfR rnd sumR f (boolLabels y) W n ref RA R0 ∧ RA.length = n ∧ NoNaN RA ∧
      (pairwise = false → ∃ LB UB, percentileR rnd A conf = .ok (LB, UB) ∧
        EB = Flt.fmax (rF rnd (UB.sub auc)) (rF rnd (auc.sub LB))) ∧
      (pairwise = true → ∃ LB UB,
        percentileR rnd (List.zipWith (fun a b => rF rnd (Flt.sub a b)) A RA) conf = .ok (LB, UB) ∧
        EB = Flt.fmax (rF rnd (UB.sub (rF rnd (auc.sub R0)))) (rF rnd ((rF rnd (auc.sub R0)).sub LB))) ∧
      (∃ v : K, pval = .fin v ∧ 0 ≤ v ∧ v ≤ 1 ∧
        v = min 1 (rnd (2 * rnd (min (((A.zip RA).countP fun q => decide (q.1 ≤ q.2) : Nat) : K)
          ((A.zip RA).countP fun q => decide (q.2 ≤ q.1) : Nat) / (n : K))))) ∧
      rows.length = grid.length ∧
      ∀ (j : Nat) (x v lo hi : Flt K), rows[j]? = some (x, v, lo, hi) → grid[j]? = some x ∧ Y0[j]? = some v ∧
        percentileR rnd (Y.map fun r => r.getD j .nan) conf = .ok (lo, hi) := by
  rw [isPosScore_unique hs (isPosScore_colAt p)]
  unfold curveBootR at h
  simp only [boolLabels_eq] at h
  rw [bind_ok_iff] at h
  obtain ⟨sh, hv, h⟩ := h
  have hsh : sh.1 = p.rows.length := by
    unfold shapeAndValidate at hv
    simp only [bind_ok_iff, exists_unit, pyAssert_eq_ok, pure_eq_ok, Except.ok.injEq] at hv
    rw [← hv.2.2.2.2]
  rw [hsh] at h
  simp only [bind_ok_iff, exists_unit, pyAssert_eq_ok, decide_eq_true_eq, pure_eq_ok, Except.ok.injEq,
    unpackOne_ok_iff, Bool.and_eq_true, List.all_eq_true] at h
  obtain ⟨-, -, hn, -, c0, h1, c, h2, a0, h3, auc', h4, g0, h5, yG, h6, h7, w, h8, cb0, h9, cb, h10, A, h11, h12, Y, h13,
    ⟨h14, h15⟩, r, h16, EB', h17, pv, h18, bounds, h19, h20⟩ := h
  obtain ⟨n, rfl⟩ := Int.eq_ofNat_of_zero_le (show 0 ≤ nBoot by omega)
  obtain ⟨e1, e2, e3⟩ := bootWeightsR_mat h8
  have hW' : (⟨p.rows.length, w.map fun r => r.map fun (v : K) => Flt.fin v⟩ : Mat K) = W := by
    rw [hW, e1]; rfl
  rw [hW'] at h9 h16
  have e4 := checkCurveR_ok h2
  have e5 := checkCurveR_ok h10
  subst e4 e5 h4 h6
  rw [interpRowsR_ok_iff] at h5 h13
  simp only [Prod.mk.injEq] at h20
  obtain ⟨⟨rfl, rfl, rfl⟩, rfl⟩ := h20
  have hn' : 1 ≤ n := by exact_mod_cast hn
  have hA : A.length = n := by exact_mod_cast h12
  have hne : A ≠ [] := by
    intro e; rw [e] at hA; simp at hA; omega
  obtain ⟨f1, f2, f3, f4⟩ := significanceR_ref hr hne h18
  rw [hA] at f1 f3 f4
  have hb := (mapM_ok_iff _ _ _).1 h19
  have hbl : bounds.length = (xGrid.getD (defaultGridR rnd)).length := by rw [← hb.length_eq]; simp
  refine ⟨n, xGrid.getD (defaultGridR rnd), yG, A, refVec n r.1, r.2, Y, rfl, hn', by exact_mod_cast e2, e3, ?_,
    ⟨c0.1, c0.2, h1, h3⟩, ⟨c0.1, c0.2, h1, h5⟩, h7, ⟨cb0.1, cb0.2, h9, h11⟩, hA, f2, ⟨cb0.1, cb0.2, h9, h13⟩,
    by exact_mod_cast h14, h15, refAreasR_ok h16, f1, f3, ?_, ?_, f4, ?_, ?_⟩
  · cases xGrid with
    | none => exact Or.inr ⟨rfl, rfl⟩
    | some g => exact Or.inl rfl
  · rintro rfl
    exact errorBarR_ok h17
  · rintro rfl
    simp only [if_true] at h17
    rw [minusRefR_eq, hA] at h17
    exact errorBarR_ok h17
  · simp [h7, hbl]
  · intro j x v lo hi hj
    obtain ⟨hj1, hj2⟩ := List.getElem?_eq_some_iff.1 hj
    simp only [List.length_zip, lt_min_iff] at hj1
    simp only [List.getElem_zip, Prod.mk.injEq] at hj2
    obtain ⟨k1, k2, k3⟩ := hj2
    refine ⟨by rw [List.getElem?_eq_getElem hj1.1, k1], by rw [List.getElem?_eq_getElem hj1.2.1, k2], ?_⟩
    have := (List.forall₂_iff_get.1 hb).2 j (by simpa using hj1.1) hj1.2.2
    simp only [List.get_eq_getElem, List.getElem_range] at this
    rw [this, k3]

theorem areaOfR_unique {f : CurveF K} {y : List Bool} {s : List (Flt K)} {W : Option (Mat K)} {A B : List (Flt K)}
    (h : AreaOfR rnd sumR f y s W A) (h' : AreaOfR rnd sumR f y s W B) : A = B := by
  obtain ⟨c, t, e1, e2⟩ := h
  obtain ⟨c', t', e1', e2'⟩ := h'
  rw [e1] at e1'
  simp only [Except.ok.injEq, Prod.mk.injEq] at e1'
  obtain ⟨rfl, rfl⟩ := e1'
  rw [e2] at e2'
  exact Except.ok.inj e2'

/-- **C115, the reference itself.**  With its own predictions (or others with the same log-probabilities of label 1) as
reference a method gets p-value exactly 1; with `pairwise_CI` the error bar is exactly 0, provided the estimate is finite. -/
theorem C115_self (hr : FloatRounding rnd) {m : Nat} (hm : HalvesExact rnd m) (h100 : 100 ≤ m)
    {other : Interp K} {y : LabelVec} {p q : Mat K} {f : CurveF K}
    {xGrid : Option (List (Flt K))} {nBoot : Int} (hnb : nBoot ≤ m) {pairwise : Bool} {conf : Flt K} {counts : List (List Nat)}
    {auc EB pval : Flt K} {rows : List (CurveRow K)}
    (h : curveBootR rnd sumR other y p (.preds q) f xGrid nBoot pairwise conf counts = .ok ((auc, EB, pval), rows))
    {s : List (Flt K)} (hs : IsPosScore p s) (hq : IsPosScore q s) :
    pval = .fin 1 ∧ (pairwise = true → EB = if auc.isFinite then .fin 0 else .nan) := by
  obtain ⟨n, grid, Y0, A, RA, R0, Y, rfl, h1, hcl, -, -, ha, -, -, hb, h2, hA, -, hY, -, ⟨s', hs', hRA, h3, hR0⟩, -, -, -, h5,
    ⟨v, rfl, -, -, hv⟩, -⟩ := C115_result hr h hs rfl
  obtain rfl := isPosScore_unique hs' hq
  obtain rfl := areaOfR_unique hRA hb
  obtain rfl : auc = R0 := by simpa using areaOfR_unique ha hR0
  have hn : (0 : K) < n := by exact_mod_cast h1
  have hnm : n ≤ m := by exact_mod_cast hnb
  constructor
  · have hz : ∀ g : Flt K × Flt K → Bool, (∀ a, g (a, a) = true) → (RA.zip RA).countP g = n := by
      intro g hg
      rw [List.countP_eq_length.2, List.length_zip, h2, min_self]
      intro x hx
      obtain ⟨i, hi, rfl⟩ := List.getElem_of_mem hx
      rw [List.getElem_zip]
      exact hg _
    rw [hz _ (by simp), hz _ (by simp), min_self, div_self hn.ne', hr.one, mul_one] at hv
    rw [hv]
    have : rnd 2 = 2 := by
      have := hm.nat (k := 2) (by omega)
      exact_mod_cast this
    rw [this]
    norm_num
  · intro hp
    obtain ⟨LB, UB, e1, rfl⟩ := h5 hp
    have hz : ∀ a ∈ List.zipWith (fun a b => rF rnd (Flt.sub a b)) RA RA, a = .fin 0 ∨ a = .nan := by
      intro a ha
      obtain ⟨i, hi, rfl⟩ := List.getElem_of_mem ha
      rw [List.getElem_zipWith]
      cases RA[i]'(by simpa using hi) with
      | fin x => left; rw [Flt.sub_fin, sub_self, rF, hr.zero]
      | pinf => right; rfl
      | ninf => right; rfl
      | nan => right; rfl
    obtain ⟨hnn, c, rfl, c0, c1⟩ := percentileR_conf e1
    have hne : List.zipWith (fun a b => rF rnd (Flt.sub a b)) RA RA ≠ [] := by
      intro e0
      have := congrArg List.length e0
      rw [List.length_zipWith, h2, min_self, List.length_nil] at this
      omega
    obtain ⟨l, u, i, j, f1, f2, f3, -⟩ := C107_interval hr hm h100 hne (by
      rw [List.length_zipWith, h2, min_self]; exact hnm) hnn c0 c1
    rw [e1] at f1
    simp only [Except.ok.injEq, Prod.mk.injEq] at f1
    obtain ⟨rfl, rfl⟩ := f1
    obtain rfl : LB = .fin 0 := (hz _ f2.1).resolve_right fun e0 => hnn (e0 ▸ f2.1)
    obtain rfl : UB = .fin 0 := (hz _ f3.1).resolve_right fun e0 => hnn (e0 ▸ f3.1)
    cases auc with
    | fin x => simp [Flt.isFinite, rF, hr.zero]
    | pinf => rfl
    | ninf => rfl
    | nan => rfl

/-- **C115, coherence.**  Whatever the curve function: the p-value is in [0, 1]; the error bar is not negative and not NaN if
the estimate is finite; at each grid point the lower end of the envelope is at most the upper end, and neither is NaN. -/
theorem C115_coherent (hr : FloatRounding rnd) {m : Nat} (hm : HalvesExact rnd m) (h100 : 100 ≤ m)
    {other : Interp K} {y : LabelVec} {p : Mat K} {ref : RefArg K} {f : CurveF K}
    {xGrid : Option (List (Flt K))} {nBoot : Int} (hnb : nBoot ≤ m) {pairwise : Bool} {conf : Flt K} {counts : List (List Nat)}
    {auc EB pval : Flt K} {rows : List (CurveRow K)}
    (h : curveBootR rnd sumR other y p ref f xGrid nBoot pairwise conf counts = .ok ((auc, EB, pval), rows)) :
    (∃ v : K, pval = .fin v ∧ 0 ≤ v ∧ v ≤ 1) ∧
    (pairwise = false → ∀ x, auc = .fin x → Flt.fin 0 ≤ EB ∧ EB ≠ .nan) ∧
    (pairwise = true → ∀ r x z, ref = .value r → r = .fin z → auc = .fin x → Flt.fin 0 ≤ EB ∧ EB ≠ .nan) ∧
    (∀ r ∈ rows, r.2.2.1 ≤ r.2.2.2 ∧ r.2.2.1 ≠ .nan ∧ r.2.2.2 ≠ .nan) ∧
    ∃ c : K, conf = .fin c ∧ 0 < c ∧ c < 1 := by
  obtain ⟨n, grid, Y0, A, RA, R0, Y, rfl, h1, -, -, -, -, -, -, -, h2, hA, -, hY, -, h3, h3', -, h4, h5, h6, -, h7⟩ :=
    C115_result hr h (isPosScore_colAt p) rfl
  have hnm : n ≤ m := by exact_mod_cast hnb
  have hbar : ∀ {b : List (Flt K)} {l u : Flt K} (x : K), b.length = n → percentileR rnd b conf = .ok (l, u) →
      Flt.fin 0 ≤ Flt.fmax (rF rnd (u.sub (.fin x))) (rF rnd ((Flt.fin x).sub l)) ∧
        Flt.fmax (rF rnd (u.sub (.fin x))) (rF rnd ((Flt.fin x).sub l)) ≠ .nan := by
    intro b l u x hb e1
    obtain ⟨hnn, c, rfl, c0, c1⟩ := percentileR_conf e1
    obtain ⟨LB, UB, k1, k2, k3⟩ := C107_error_bar hr hm h100 (boot := b) (by rintro rfl; simp at hb; omega)
      (by omega) hnn c0 c1 (.fin x)
    rw [e1] at k1
    simp only [Except.ok.injEq, Prod.mk.injEq] at k1
    obtain ⟨rfl, rfl⟩ := k1
    exact k3 x rfl
  refine ⟨?_, ?_, ?_, ?_, ?_⟩
  · obtain ⟨v, e, h8, h9, -⟩ := h6
    exact ⟨v, e, h8, h9⟩
  · rintro hp x rfl
    obtain ⟨LB, UB, e1, rfl⟩ := h4 hp
    exact hbar x h2 e1
  · rintro hp r x z rfl rfl rfl
    obtain ⟨LB, UB, e1, rfl⟩ := h5 hp
    obtain ⟨-, rfl⟩ := h3
    rw [Flt.sub_fin]
    exact hbar (rnd (x - z)) (by rw [List.length_zipWith, h2, h3', min_self]) e1
  · rintro ⟨x, v, lo, hi⟩ hrow
    obtain ⟨j, hj, e⟩ := List.getElem_of_mem hrow
    obtain ⟨-, -, e3⟩ := h7 j x v lo hi (by rw [List.getElem?_eq_getElem hj, e])
    obtain ⟨hnn, c, rfl, c0, c1⟩ := percentileR_conf e3
    have hne : (Y.map fun r => r.getD j .nan) ≠ [] := by
      intro e0
      rw [List.map_eq_nil_iff] at e0
      rw [e0] at hY; simp at hY; omega
    obtain ⟨l, u, i, k, f1, f2, f3, -, -, -, f4⟩ := C107_interval hr hm h100 hne (by rw [List.length_map, hY]; exact hnm) hnn c0 c1
    rw [e3] at f1
    simp only [Except.ok.injEq, Prod.mk.injEq] at f1
    obtain ⟨rfl, rfl⟩ := f1
    exact ⟨f4, fun e0 => hnn (e0 ▸ f2.1), fun e0 => hnn (e0 ▸ f3.1)⟩
  · cases pairwise with
    | false =>
      obtain ⟨LB, UB, e1, -⟩ := h4 rfl
      exact (percentileR_conf e1).2
    | true =>
      obtain ⟨LB, UB, e1, -⟩ := h5 rfl
      exact (percentileR_conf e1).2

/-- **C115, paired error bar.**  With `pairwise_CI` and reference predictions, too, the error bar is neither negative nor NaN,
whatever the curve function, if the computed areas of the method and of the reference (without weights) are finite. -/
theorem C115_paired (hr : FloatRounding rnd) {m : Nat} (hm : HalvesExact rnd m) (h100 : 100 ≤ m)
    {other : Interp K} {y : LabelVec} {p q : Mat K} {f : CurveF K}
    {xGrid : Option (List (Flt K))} {nBoot : Int} (hnb : nBoot ≤ m) {conf : Flt K} {counts : List (List Nat)}
    {x : K} {EB pval : Flt K} {rows : List (CurveRow K)}
    (h : curveBootR rnd sumR other y p (.preds q) f xGrid nBoot true conf counts = .ok ((.fin x, EB, pval), rows))
    {s : List (Flt K)} (hs : IsPosScore q s) {z : K} (hz : AreaOfR rnd sumR f (boolLabels y) s none [.fin z]) :
    Flt.fin 0 ≤ EB ∧ EB ≠ .nan := by
  obtain ⟨n, grid, Y0, A, RA, R0, Y, rfl, h1, -, -, -, -, -, -, -, h2, hA, -, hY, -, h3, h3', -, h4, h5, h6, -, h7⟩ :=
    C115_result hr h (isPosScore_colAt p) rfl
  have hnm : n ≤ m := by exact_mod_cast hnb
  obtain ⟨LB, UB, e1, rfl⟩ := h5 rfl
  obtain ⟨s', hs', -, -, c, thr, k1, k2⟩ := h3
  obtain rfl := isPosScore_unique hs' hs
  obtain ⟨c', thr', k3, k4⟩ := hz
  rw [k1] at k3
  simp only [Except.ok.injEq, Prod.mk.injEq] at k3
  obtain ⟨rfl, rfl⟩ := k3
  rw [k2] at k4
  simp only [Except.ok.injEq, List.cons.injEq, and_true] at k4
  subst k4
  obtain ⟨hnn, c, rfl, c0, c1⟩ := percentileR_conf e1
  have hl : (List.zipWith (fun a b => rF rnd (Flt.sub a b)) A RA).length = n := by
    rw [List.length_zipWith, h2, h3', min_self]
  obtain ⟨l, u, f1, f2, f3⟩ := C107_error_bar hr hm h100 (by intro e0; rw [e0] at hl; simp at hl; omega)
    (by omega) hnn c0 c1 (.fin (rnd (x - z)))
  rw [e1] at f1
  simp only [Except.ok.injEq, Prod.mk.injEq] at f1
  obtain ⟨rfl, rfl⟩ := f1
  rw [Flt.sub_fin]
  exact f3 _ rfl

/-! ### Curves from 0 to 1 -/

/-- A number or `-inf`. -/
def NumOrNinf (v : Flt K) : Prop := v = .ninf ∨ ∃ x, v = .fin x

theorem NumOrNinf.ne_nan {v : Flt K} (h : NumOrNinf v) : v ≠ .nan := by
  rcases h with rfl | ⟨x, rfl⟩ <;> simp

theorem numOrNinf_of {v : Flt K} {x : K} (h : v ≤ .fin x) : NumOrNinf v := by
  cases v with
  | fin y => exact Or.inr ⟨y, rfl⟩
  | ninf => exact Or.inl rfl
  | pinf => exact absurd h (by simp)
  | nan => exact absurd h (by simp)

theorem numOrNinf_sum {l : List (Flt K)} (h : ∀ v ∈ l, NumOrNinf v) : NumOrNinf (Flt.sum l) := by
  have : ∀ (l : List (Flt K)) (a : Flt K), NumOrNinf a → (∀ v ∈ l, NumOrNinf v) → NumOrNinf (l.foldl Flt.add a) := by
    intro l
    induction l with
    | nil => exact fun a ha _ => ha
    | cons b l ih =>
      intro a ha hl
      rw [List.foldl_cons]
      refine ih _ ?_ fun v hv => hl v (by simp [hv])
      rcases ha with rfl | ⟨x, rfl⟩ <;> rcases hl b (by simp) with rfl | ⟨z, rfl⟩
      · exact Or.inl rfl
      · exact Or.inl rfl
      · exact Or.inl rfl
      · exact Or.inr ⟨x + z, Flt.add_fin _ _⟩
  exact this l _ (Or.inr ⟨0, rfl⟩) h

theorem mem_zipWith {α β γ : Type} {g : α → β → γ} {l : List α} {m : List β} {c : γ} (h : c ∈ List.zipWith g l m) :
    ∃ a ∈ l, ∃ b ∈ m, c = g a b := by
  obtain ⟨i, hi, rfl⟩ := List.getElem_of_mem h
  rw [List.getElem_zipWith]
  exact ⟨_, List.getElem_mem _, _, List.getElem_mem _, rfl⟩

/-- The areas under step curves whose values are at most 1, possibly `-inf`. -/
theorem areaPrevR_unit (hr : FloatRounding rnd) {x : List K} {v : List (Flt K)} (hx : x.Pairwise (· ≤ ·))
    (hv : ∀ w ∈ v, NumOrNinf w) : NumOrNinf (areaPrevR rnd sumR (finVec x) v) := by
  have hd : ∀ d ∈ diffFR rnd (finVec x), ∃ z : K, d = .fin z ∧ 0 ≤ z := by
    intro d hd
    obtain ⟨a, ha⟩ : ∃ z : K, d = .fin z := by
      unfold diffFR at hd
      obtain ⟨a, ha, b, hb, rfl⟩ := mem_zipWith hd
      obtain ⟨a, -, rfl⟩ := List.mem_map.1 ha
      obtain ⟨b, -, rfl⟩ := List.mem_map.1 (List.mem_of_mem_tail hb)
      exact ⟨rnd (b - a), by rw [Flt.sub_fin]; rfl⟩
    refine ⟨a, ha, ?_⟩
    have h1 := (sortable_iff.1 (sortable_finVec hx)).2
    rw [← diffFR_le hr] at h1
    have := List.all_eq_true.1 h1 d hd
    rw [ha] at this
    simpa using this
  have hterm : ∀ t ∈ (List.zipWith (fun a d => rF rnd (Flt.mul a d)) v.dropLast (diffFR rnd (finVec x))).map
      (fun w => if w.isNaN then .fin 0 else w), NumOrNinf t := by
    intro t ht
    obtain ⟨w, hw, rfl⟩ := List.mem_map.1 ht
    obtain ⟨a, ha, d, hdm, rfl⟩ := mem_zipWith hw
    obtain ⟨z, rfl, hz⟩ := hd d hdm
    rcases hv a (List.mem_of_mem_dropLast ha) with rfl | ⟨q, rfl⟩
    · rcases hz.eq_or_lt with rfl | hz
      · refine Or.inr ⟨0, ?_⟩
        simp [Flt.mul, Flt.signInf, rF, Flt.isNaN]
      · refine Or.inl ?_
        simp [Flt.mul, Flt.signInf, Flt.neg, rF, Flt.isNaN, hz, hz.ne', hz.le, hz.not_gt]
    · refine Or.inr ⟨rnd (q * z), ?_⟩
      simp [rF, Flt.isNaN]
  unfold areaPrevR sumFR
  split_ifs
  · exact Or.inr ⟨_, rfl⟩
  · exact numOrNinf_sum hterm

theorem rectR_nonneg (hr : FloatRounding rnd) : ∀ {x y : List K}, x.Pairwise (· ≤ ·) → (∀ v ∈ y, 0 ≤ v) → ∀ {kind : Kind},
    (kind = .previous ∨ kind = .linear) → ∀ t ∈ pieces (pieceOfR rnd kind) x y, 0 ≤ t
  | a :: b :: xs, y0 :: y1 :: ys, hp, hy, kind, hk, t, ht => by
    have hab : 0 ≤ b - a := sub_nonneg.2 ((List.pairwise_cons.1 hp).1 b (by simp))
    have h0 := hy y0 (by simp)
    have h1 := hy y1 (by simp)
    rw [pieces, List.mem_cons] at ht
    rcases ht with rfl | ht
    · rcases hk with rfl | rfl
      · exact hr.nonneg (mul_nonneg h0 (hr.nonneg hab))
      · exact hr.nonneg (div_nonneg (hr.nonneg (mul_nonneg (hr.nonneg hab) (hr.nonneg (add_nonneg h1 h0)))) (by norm_num))
    · exact rectR_nonneg hr (x := b :: xs) (y := y1 :: ys) (List.pairwise_cons.1 hp).2
        (fun v hv => hy v (List.mem_cons_of_mem _ hv)) hk t ht
  | [], _, _, _, _, _, t, ht => by simp [pieces] at ht
  | [_], _, _, _, _, _, t, ht => by simp [pieces] at ht
  | _ :: _ :: _, [], _, _, _, _, t, ht => by simp [pieces] at ht
  | _ :: _ :: _, [_], _, _, _, _, t, ht => by simp [pieces] at ht

/-- The computed area of one curve from 0 to 1. -/
theorem row_areaR (hr : FloatRounding rnd) (hs : AddsAlongTrees rnd sumR) {u : K} (hu : 0 ≤ u) (he : RelError u rnd) {n : Nat} {kind : Kind}
    (hk : kind = .previous ∨ kind = .linear) (h2 : 2 ≤ n) {x y : List K}
    (hx : x.length = n ∧ x.Pairwise (· ≤ ·) ∧ x.head? = some 0 ∧ x.getLast? = some 1)
    (hl : y.length = n) (hy : ∀ v ∈ y, 0 ≤ v ∧ v ≤ 1) :
    0 ≤ sumR (pieces (pieceOfR rnd kind) x y) ∧ sumR (pieces (pieceOfR rnd kind) x y) ≤ (1 + u) ^ (n + 2) ∧
      |sumR (pieces (pieceOfR rnd kind) x y) - pieceSum (pieceOf kind) x y| ≤ (1 + u) ^ (n + 2) - 1 := by
  have hb : 0 ≤ pieceSum (pieceOf kind) x y ∧ pieceSum (pieceOf kind) x y ≤ 1 := by
    have := row_area (lo := Flt.fin 0) (kind := kind) (Or.inr rfl) (by rcases hk with rfl | rfl <;> simp) h2 hx (v := finVec y)
      ⟨by simp [finVec, hl], by
        intro w hw
        obtain ⟨z, hz, rfl⟩ := List.mem_map.1 hw
        exact ⟨Flt.fin_le_fin.2 (hy z hz).1, Flt.fin_le_fin.2 (hy z hz).2⟩⟩
    rcases hk with rfl | rfl
    · have := this.1 rfl
      rw [areaPrev_fin (by omega), Flt.fin_le_fin, Flt.fin_le_fin] at this
      exact this
    · have := this.2 rfl
      rw [trapz_fin (by omega), Flt.fin_le_fin, Flt.fin_le_fin] at this
      exact this
  have h1 := sum_pieces_near (sumR := sumR) hs hu he hk (x := x) (y := y) (by omega) (by omega)
  have h3 := abs_pieces hk (x := x) (y := y) hx.2.1 (by omega)
  have e : y.map (fun v => |v|) = y := by
    conv_rhs => rw [← List.map_id y]
    exact List.map_congr_left fun v hv => abs_of_nonneg (hy v hv).1
  rw [e] at h3
  have hq : 1 ≤ (1 + u) ^ (n + 2) := one_le_pow₀ (by linarith)
  rw [hx.1] at h1
  have h4 : |sumR (pieces (pieceOfR rnd kind) x y) - pieceSum (pieceOf kind) x y| ≤ (1 + u) ^ (n + 2) - 1 := by
    refine h1.trans ?_
    have := mul_le_mul_of_nonneg_left (h3.trans hb.2) (sub_nonneg.2 hq)
    linarith
  refine ⟨sum_nonneg_of_trees hr hs (rectR_nonneg hr hx.2.1 (fun v hv => (hy v hv).1) hk), ?_, h4⟩
  have := (abs_le.1 h4).2
  linarith

end
end Mlp.Props
