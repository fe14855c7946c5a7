import Verif.Spec.CurveBoot
import Verif.Props.Boot
import Verif.Props.Gain
import Verif.Props.Auc
import Verif.Props.CurveLaws
import Verif.Props.ClassPred
import Mathlib.Data.Rat.Floor

/-! # Property C82: bootstrapped curve summaries -/

namespace Mlp.Props
open Mlp.Util Mlp.Spec Mlp.Classif Mlp.Lemmas Mlp.Frame Mlp.Boot Mlp.Perf

set_option linter.unusedSectionVars false

section
variable {K : Type} [Field K] [LinearOrder K] [IsStrictOrderedRing K] [FloorRing K]

theorem isPosScore_colAt (p : Mat K) : IsPosScore p (colAt p 1) := by
  refine ⟨by simp [colAt], fun i r hr => ?_⟩
  unfold colAt
  rw [List.getElem?_map, hr]; rfl

theorem isPosScore_unique {p : Mat K} {s s' : List (Flt K)} (h : IsPosScore p s) (h' : IsPosScore p s') : s = s' := by
  apply List.ext_getElem?
  intro i
  cases hr : p.rows[i]? with
  | some r => rw [h.2 i r hr, h'.2 i r hr]
  | none =>
    rw [List.getElem?_eq_none_iff] at hr
    rw [List.getElem?_eq_none (by rw [h.1]; exact hr), List.getElem?_eq_none (by rw [h'.1]; exact hr)]

theorem boolLabels_eq (y : LabelVec) : (y.vals.map fun v => decide (v ≠ 0)) = boolLabels y := by
  unfold boolLabels
  refine List.map_congr_left fun v _ => ?_
  rw [Bool.eq_iff_iff]; simp

theorem bootWeights_mat {N : Nat} {nBoot : Int} {counts : List (List Nat)} {w : List (List K)}
    (h : bootWeights (N : Int) nBoot ((1 : K) / 10000000000) counts = .ok w) :
    (⟨N, w.map fun r => r.map fun (v : K) => Flt.fin v⟩ : Mat K) = bootMat N counts ∧ (counts.length : Int) = nBoot ∧
      ∀ row ∈ counts, row.length = N := by
  unfold bootWeights at h
  simp only [bind_ok_iff, exists_unit, pyAssert_eq_ok, pure_eq_ok, Except.ok.injEq, Bool.and_eq_true,
    decide_eq_true_eq, List.all_eq_true] at h
  obtain ⟨h1, h2, ⟨h3, h4⟩, rfl⟩ := h
  refine ⟨?_, by simpa using h3, ?_⟩
  · unfold bootMat
    congr 1
    rw [List.map_map]
    refine List.map_congr_left fun row _ => ?_
    simp only [Function.comp]
    rw [List.map_map]
    refine List.map_congr_left fun c _ => ?_
    simp only [Function.comp]
    congr 1
    by_cases hc : c = 0
    · subst hc
      rw [if_pos rfl, Nat.cast_zero, max_eq_left (by positivity)]
    · rw [if_neg hc, max_eq_right]
      have : (1 : K) ≤ c := by exact_mod_cast Nat.one_le_iff_ne_zero.2 hc
      refine le_trans ?_ this
      rw [div_le_one (by positivity)]
      norm_num
  · intro row hrow
    have := h4 _ (List.mem_map_of_mem hrow)
    simpa using this

theorem checkCurve_ok {r : Curve K × List (Flt K)} {g : Option (List (Flt K))} {c : Curve K}
    (h : checkCurve r g = .ok c) : c = r.1 := by
  unfold checkCurve at h
  simp only [bind_ok_iff, exists_unit, pyAssert_eq_ok, pure_eq_ok, Except.ok.injEq] at h
  exact h.2.2.2.2.2.2.symm

theorem unpackOne_ok_iff {α : Type} (l : List α) (a : α) : unpackOne l = .ok a ↔ l = [a] := by
  unfold unpackOne
  split <;> simp_all

theorem interpRows_ok_iff (other : Interp K) (g : List (Flt K)) (c : Curve K) (Y : List (List (Flt K))) :
    interpRows other g c = .ok Y ↔
      List.Forall₂ (fun xy row => interp1d other g xy.1 xy.2 c.kind = .ok row) (List.zip c.x.rows c.y.rows) Y := by
  unfold interpRows
  exact mapM_ok_iff _ _ _

theorem errorBar_ok {boot : List (Flt K)} {orig conf EB : Flt K} (h : errorBar boot orig conf = .ok EB) :
    ∃ LB UB, percentile boot conf = .ok (LB, UB) ∧ EB = Flt.fmax (UB.sub orig) (orig.sub LB) := by
  unfold errorBar at h
  simp only [bind_ok_iff, exists_unit, pyAssert_eq_ok, pure_eq_ok, Except.ok.injEq] at h
  obtain ⟨p, h1, -, -, rfl⟩ := h
  exact ⟨p.1, p.2, h1, rfl⟩

/-- The reference areas as a vector. -/
def refVec (n : Nat) : Ref K → List (Flt K)
  | .scalar r => List.replicate n r
  | .paired r => r

theorem minusRef_eq (boot : List (Flt K)) (r : Ref K) :
    minusRef boot r = List.zipWith Flt.sub boot (refVec boot.length r) := by
  cases r with
  | paired r => rfl
  | scalar r =>
    unfold minusRef refVec
    induction boot with
    | nil => rfl
    | cons a l ih => simp only [List.map_cons, List.length_cons, List.replicate_succ, List.zipWith_cons_cons, ih]

theorem significance_ref {boot : List (Flt K)} {r : Ref K} {p : Flt K} (hne : boot ≠ [])
    (h : significance boot r = .ok p) :
    (refVec boot.length r).length = boot.length ∧ NoNaN boot ∧ NoNaN (refVec boot.length r) ∧
      ∃ v : K, p = .fin v ∧ 0 ≤ v ∧ v ≤ 1 ∧
      v = min 1 (2 * (min (((boot.zip (refVec boot.length r)).countP fun q => decide (q.1 ≤ q.2) : Nat) : K)
        ((boot.zip (refVec boot.length r)).countP fun q => decide (q.2 ≤ q.1) : Nat) / (boot.length : K))) := by
  have h' : significance boot (.paired (refVec boot.length r)) = .ok p := by
    cases r with
    | paired r => exact h
    | scalar r => exact (C41_scalar_is_constant boot hne (r := r)).symm.trans h
  have hl : (refVec boot.length r).length = boot.length := by
    by_contra hc
    unfold significance Ref.broadcast at h'
    simp only [if_neg hc] at h'
    cases h'
  have hnn : NoNaN boot ∧ NoNaN (refVec boot.length r) := by
    unfold significance Ref.broadcast at h'
    simp only [if_pos hl, bind_ok_iff, exists_unit, pyAssert_eq_ok, Bool.not_eq_true'] at h'
    exact ⟨any_isNaN.1 h'.1, any_isNaN.1 h'.2.1⟩
  refine ⟨hl, hnn.1, hnn.2, ?_⟩
  obtain ⟨v, h1, h2, h3, h4⟩ := C41_paired hne hl hnn.1 hnn.2
  rw [h'] at h1
  exact ⟨v, Except.ok.inj h1, h2, h3, h4⟩

theorem refAreas_ok {f : CurveF K} {y : List Bool} {W : Mat K} {nBoot : Nat} {ref : RefArg K} {r : Ref K × Flt K}
    (h : refAreas f y W (nBoot : Int) ref = .ok r) : RefAreas f y W nBoot ref (refVec nBoot r.1) r.2 := by
  cases ref with
  | value v =>
    unfold refAreas at h
    cases h
    exact ⟨rfl, rfl⟩
  | preds q =>
    unfold refAreas at h
    simp only [bind_ok_iff, exists_unit, pyAssert_eq_ok, decide_eq_true_eq, pure_eq_ok, Except.ok.injEq,
      unpackOne_ok_iff] at h
    obtain ⟨cb0, h1, cb, h2, ab, h3, h4, c0, h5, c, h6, a, h7, a', h8, rfl⟩ := h
    have e1 := checkCurve_ok h2
    have e2 := checkCurve_ok h6
    subst e1 e2 h8
    exact ⟨_, isPosScore_colAt q, ⟨cb0.1, cb0.2, h1, h3⟩, by exact_mod_cast h4, ⟨c0.1, c0.2, h5, h7⟩⟩

/-- **C82, result.**  What `curve_boot` returns, for any curve function: the estimate is the area of the curve without
weights; the error and the p-value come from the areas of the curves with the bootstrap weights and from those of the
reference with the same weights; each row of the table has a grid point, the value of the curve and the percentiles of
the values of the bootstrapped curves there. -/
theorem C82_result {other : Interp K} {y : LabelVec} {p : Mat K} {ref : RefArg K} {f : CurveF K}
    {xGrid : Option (List (Flt K))} {nBoot : Int} {pairwise : Bool} {conf : Flt K} {counts : List (List Nat)}
    {auc EB pval : Flt K} {rows : List (CurveRow K)}
    (h : curveBoot other y p ref f xGrid nBoot pairwise conf counts = .ok ((auc, EB, pval), rows))
    {s : List (Flt K)} (hs : IsPosScore p s) :
    ∃ (n : Nat) (grid Y0 : List (Flt K)) (A RA : List (Flt K)) (R0 : Flt K) (Y : List (List (Flt K))),
      nBoot = n ∧ 1 ≤ n ∧ counts.length = n ∧ (∀ row ∈ counts, row.length = p.rows.length) ∧
      (xGrid = some grid ∨ xGrid = none ∧ grid = defaultGrid) ∧
      AreaOf f (boolLabels y) s none [auc] ∧ CurveAt other f (boolLabels y) s none grid [Y0] ∧
      Y0.length = grid.length ∧
      AreaOf f (boolLabels y) s (some (bootMat p.rows.length counts)) A ∧ A.length = n ∧ NoNaN A ∧
      CurveAt other f (boolLabels y) s (some (bootMat p.rows.length counts)) grid Y ∧
      Y.length = n ∧ (∀ row ∈ Y, row.length = grid.length) ∧
      RefAreas f (boolLabels y) (bootMat p.rows.length counts) n ref RA R0 ∧ RA.length = n ∧ NoNaN RA ∧
      (pairwise = false → ∃ LB UB, percentile A conf = .ok (LB, UB) ∧ EB = Flt.fmax (UB.sub auc) (auc.sub LB)) ∧
      (pairwise = true → ∃ LB UB, percentile (List.zipWith Flt.sub A RA) conf = .ok (LB, UB) ∧
        EB = Flt.fmax (UB.sub (auc.sub R0)) ((auc.sub R0).sub LB)) ∧
      (∃ v : K, pval = .fin v ∧ 0 ≤ v ∧ v ≤ 1 ∧
        v = min 1 (2 * (min (((A.zip RA).countP fun q => decide (q.1 ≤ q.2) : Nat) : K)
          ((A.zip RA).countP fun q => decide (q.2 ≤ q.1) : Nat) / (n : K)))) ∧
      rows.length = grid.length ∧
      ∀ (j : Nat) (x v lo hi : Flt K), rows[j]? = some (x, v, lo, hi) → grid[j]? = some x ∧ Y0[j]? = some v ∧
        percentile (Y.map fun r => r.getD j .nan) conf = .ok (lo, hi) := by
  rw [isPosScore_unique hs (isPosScore_colAt p)]
  unfold curveBoot at h
  simp only [boolLabels_eq] at h
  rw [bind_ok_iff] at h
  obtain ⟨sh, hv, h⟩ := h
  have hsh : sh.1 = p.rows.length := by
    unfold shapeAndValidate at hv
    simp only [bind_ok_iff, exists_unit, pyAssert_eq_ok, pure_eq_ok, Except.ok.injEq] at hv
    rw [← hv.2.2.2.2]
  rw [hsh] at h
  simp only [bind_ok_iff, exists_unit, pyAssert_eq_ok, decide_eq_true_eq, pure_eq_ok, Except.ok.injEq,
    unpackOne_ok_iff, Bool.and_eq_true, List.all_eq_true] at h
  obtain ⟨-, -, hn, -, c0, h1, c, h2, a0, h3, auc', h4, g0, h5, yG, h6, h7, w, h8, cb0, h9, cb, h10, A, h11, h12, Y, h13,
    ⟨h14, h15⟩, r, h16, EB', h17, pv, h18, bounds, h19, h20⟩ := h
  obtain ⟨n, rfl⟩ := Int.eq_ofNat_of_zero_le (show 0 ≤ nBoot by omega)
  obtain ⟨e1, e2, e3⟩ := bootWeights_mat h8
  rw [e1] at h9 h16
  have e4 := checkCurve_ok h2
  have e5 := checkCurve_ok h10
  subst e4 e5 h4 h6
  rw [interpRows_ok_iff] at h5 h13
  simp only [Prod.mk.injEq] at h20
  obtain ⟨⟨rfl, rfl, rfl⟩, rfl⟩ := h20
  have hn' : 1 ≤ n := by exact_mod_cast hn
  have hA : A.length = n := by exact_mod_cast h12
  have hne : A ≠ [] := by
    intro e; rw [e] at hA; simp at hA; omega
  obtain ⟨f1, f2, f3, f4⟩ := significance_ref hne h18
  rw [hA] at f1 f3 f4
  have hb := (mapM_ok_iff _ _ _).1 h19
  have hbl : bounds.length = (xGrid.getD defaultGrid).length := by rw [← hb.length_eq]; simp
  refine ⟨n, xGrid.getD defaultGrid, yG, A, refVec n r.1, r.2, Y, rfl, hn', by exact_mod_cast e2, e3, ?_,
    ⟨c0.1, c0.2, h1, h3⟩, ⟨c0.1, c0.2, h1, h5⟩, h7, ⟨cb0.1, cb0.2, h9, h11⟩, hA, f2, ⟨cb0.1, cb0.2, h9, h13⟩,
    by exact_mod_cast h14, h15, refAreas_ok h16, f1, f3, ?_, ?_, f4, ?_, ?_⟩
  · cases xGrid with
    | none => exact Or.inr ⟨rfl, rfl⟩
    | some g => exact Or.inl rfl
  · rintro rfl
    exact errorBar_ok h17
  · rintro rfl
    simp only [if_true] at h17
    rw [minusRef_eq, hA] at h17
    exact errorBar_ok h17
  · simp [h7, hbl]
  · intro j x v lo hi hj
    obtain ⟨hj1, hj2⟩ := List.getElem?_eq_some_iff.1 hj
    simp only [List.length_zip, lt_min_iff] at hj1
    simp only [List.getElem_zip, Prod.mk.injEq] at hj2
    obtain ⟨k1, k2, k3⟩ := hj2
    refine ⟨by rw [List.getElem?_eq_getElem hj1.1, k1], by rw [List.getElem?_eq_getElem hj1.2.1, k2], ?_⟩
    have := (List.forall₂_iff_get.1 hb).2 j (by simpa using hj1.1) hj1.2.2
    simp only [List.get_eq_getElem, List.getElem_range] at this
    rw [this, k3]

/-! ### Curves from 0 to 1 -/

theorem finVec_all_finite (xs : List K) : ((finVec xs).all fun v => v.isFinite) = true := by
  simp [finVec, Flt.isFinite]

theorem exists_finVec_of_bounds {l : List (Flt K)} (h : ∀ v ∈ l, Flt.fin 0 ≤ v ∧ v ≤ .fin 1) :
    ∃ xs : List K, l = finVec xs ∧ ∀ x ∈ xs, 0 ≤ x ∧ x ≤ 1 := by
  induction l with
  | nil => exact ⟨[], rfl, by simp⟩
  | cons a l ih =>
    obtain ⟨xs, rfl, h2⟩ := ih fun v hv => h v (by simp [hv])
    have ha := h a (by simp)
    cases a with
    | fin x =>
      refine ⟨x :: xs, rfl, ?_⟩
      intro z hz
      rcases List.mem_cons.1 hz with rfl | hz
      · exact ⟨Flt.fin_le_fin.1 ha.1, Flt.fin_le_fin.1 ha.2⟩
      · exact h2 z hz
    | pinf => exact absurd ha.2 (by simp)
    | ninf => exact absurd ha.1 (by simp)
    | nan => exact absurd ha.2 (by simp)

theorem rises_split {n : Nat} {x : List K} (h2 : 2 ≤ n) (hl : x.length = n) (h0 : x.head? = some 0)
    (h1 : x.getLast? = some 1) : ∃ t : List K, ∃ ht : t ≠ [], x = 0 :: t ∧ t.getLast ht = 1 := by
  cases x with
  | nil => simp at h0
  | cons a t =>
    simp only [List.head?_cons, Option.some.injEq] at h0
    subst h0
    have ht : t ≠ [] := by
      rintro rfl
      simp at hl; omega
    refine ⟨t, ht, rfl, ?_⟩
    rw [List.getLast?_cons, List.getLast?_eq_getLast_of_ne_nil ht] at h1
    simpa using h1

theorem row_area {lo : Flt K} {n : Nat} {kind : Kind} {x : List K} {v : List (Flt K)}
    (hlo : lo = .ninf ∨ lo = .fin 0)
    (hk : kind = .previous ∨ kind = .linear ∧ lo = .fin 0) (h2 : 2 ≤ n)
    (hx : x.length = n ∧ x.Pairwise (· ≤ ·) ∧ x.head? = some 0 ∧ x.getLast? = some 1)
    (hv : v.length = n ∧ ∀ u ∈ v, lo ≤ u ∧ u ≤ .fin 1) :
    ((kind = .previous → lo ≤ areaPrev (finVec x) v ∧ areaPrev (finVec x) v ≤ .fin 1)) ∧
    (kind = .linear → lo ≤ trapz (finVec x) v ∧ trapz (finVec x) v ≤ .fin 1) := by
  obtain ⟨t, ht, rfl, hlast⟩ := rises_split h2 hx.1 hx.2.2.1 hx.2.2.2
  have hlt : t.length + 1 = v.length := by rw [hv.1, ← hx.1]; rfl
  have key : lo = .fin 0 → ∃ ys : List K, v = finVec ys ∧ ∀ k, k = .previous ∨ k = .linear →
      0 ≤ pieceSum (pieceOf k) (0 :: t) ys ∧ pieceSum (pieceOf k) (0 :: t) ys ≤ 1 := by
    rintro rfl
    obtain ⟨ys, rfl, hys⟩ := exists_finVec_of_bounds hv.2
    refine ⟨ys, rfl, fun k hk => ?_⟩
    have hl : t.length + 1 = ys.length := by simpa [finVec] using hlt
    obtain ⟨s, e1, e2, e3⟩ := C61_bounds hx.2.1 ht hl (lo := 0) (hi := 1) (fun y hy => (hys y hy).1)
      (fun y hy => (hys y hy).2) hk
    rw [area_curve (xs := 0 :: t) (by rw [hx.1]; exact h2) (by simpa using hl) hk] at e1
    simp only [Except.ok.injEq, List.cons.injEq, Flt.fin.injEq, and_true] at e1
    rw [hlast] at e2 e3
    rw [e1]
    constructor <;> linarith
  constructor
  · rintro rfl
    rcases hlo with rfl | rfl
    · obtain ⟨-, a2, -⟩ := areaPrev_ninf hx.2.1 hlt fun u hu => by
        refine ⟨?_, (hv.2 u hu).2⟩
        rintro rfl
        exact absurd (hv.2 _ hu).2 (by simp)
      rw [List.getLast_cons ht, hlast, sub_zero] at a2
      exact ⟨Flt.ninf_le _, a2⟩
    · obtain ⟨ys, rfl, hb⟩ := key rfl
      rw [areaPrev_fin (by simpa [finVec] using hlt)]
      have := hb .previous (Or.inl rfl)
      exact ⟨Flt.fin_le_fin.2 this.1, Flt.fin_le_fin.2 this.2⟩
  · rintro rfl
    obtain rfl : lo = .fin 0 := by simpa using hk
    obtain ⟨ys, rfl, hb⟩ := key rfl
    rw [trapz_fin (by simpa [finVec] using hlt)]
    have := hb .linear (Or.inr rfl)
    exact ⟨Flt.fin_le_fin.2 this.1, Flt.fin_le_fin.2 this.2⟩

theorem ne_nan_of_le {v : Flt K} {x : K} (h : v ≤ .fin x) : v.isNaN = false := by
  cases v with
  | nan => exact absurd h (by simp)
  | fin x => rfl
  | pinf => rfl
  | ninf => rfl

theorem area_unit {lo : Flt K} {n : Nat} {X : List (List K)} {Y : List (List (Flt K))} {kind : Kind}
    (hlo : lo = .ninf ∨ lo = .fin 0) (h : UnitCurve lo n X Y kind) :
    ∃ A, area (finMat n X) ⟨n, Y⟩ kind = .ok A ∧ A.length = X.length ∧ ∀ a ∈ A, lo ≤ a ∧ a ≤ .fin 1 := by
  have hmem : ∀ (g : List (Flt K) → List (Flt K) → Flt K) (a : Flt K), a ∈ List.zipWith g (X.map finVec) Y →
      ∃ x ∈ X, ∃ v ∈ Y, a = g (finVec x) v := by
    intro g a ha
    obtain ⟨i, hi, rfl⟩ := List.getElem_of_mem ha
    simp only [List.getElem_zipWith, List.getElem_map]
    exact ⟨_, List.getElem_mem _, _, List.getElem_mem _, rfl⟩
  have hy : (Y.any fun r => r.any fun v => v.isNaN) = false := by
    rw [List.any_eq_false]
    intro r hr
    simp only [List.any_eq_true, not_exists, not_and, Bool.not_eq_true]
    exact fun v hv => ne_nan_of_le ((h.ys r hr).2 v hv).2
  have hbound : ∀ g : List (Flt K) → List (Flt K) → Flt K,
      (∀ x ∈ X, ∀ v ∈ Y, lo ≤ g (finVec x) v ∧ g (finVec x) v ≤ .fin 1) →
      ((List.zipWith g (X.map finVec) Y).any fun v => v.isNaN) = false ∧
      (List.zipWith g (X.map finVec) Y).length = X.length ∧
      ∀ a ∈ List.zipWith g (X.map finVec) Y, lo ≤ a ∧ a ≤ .fin 1 := by
    intro g hg
    have h3 : ∀ a ∈ List.zipWith g (X.map finVec) Y, lo ≤ a ∧ a ≤ .fin 1 := by
      intro a ha
      obtain ⟨x, hx, v, hv, rfl⟩ := hmem g a ha
      exact hg x hx v hv
    refine ⟨?_, by simp [h.rows], h3⟩
    rw [List.any_eq_false]
    intro r hr
    rw [ne_nan_of_le (h3 r hr).2]
    simp
  unfold area
  simp only [finMat_noNaN]
  simp only [finMat, List.length_map, h.rows, h.two, hy, decide_true, Bool.not_false, Bool.and_true, pyAssert_bind,
    if_true]
  rcases h.kind with rfl | ⟨rfl, hl0⟩
  · obtain ⟨b1, b2, b3⟩ := hbound areaPrev fun x hx v hv =>
      (row_area hlo h.kind h.two (h.xs x hx) (h.ys v hv)).1 rfl
    refine ⟨_, ?_, b2, b3⟩
    simp only [pure_eq_ok, ok_bind, b1, Bool.not_false, if_true]
  · obtain ⟨b1, b2, b3⟩ := hbound trapz fun x hx v hv =>
      (row_area hlo h.kind h.two (h.xs x hx) (h.ys v hv)).2 rfl
    refine ⟨_, ?_, b2, b3⟩
    simp only [pure_eq_ok, ok_bind, b1, Bool.not_false, if_true]

/-- The values of such a curve on a grid in [0, 1]. -/
theorem row_interp (other : Interp K) {lo : Flt K} {n : Nat} {kind : Kind} {x : List K} {v : List (Flt K)}
    (hk : kind = .previous ∨ kind = .linear ∧ lo = .fin 0) (h2 : 2 ≤ n)
    (hx : x.length = n ∧ x.Pairwise (· ≤ ·) ∧ x.head? = some 0 ∧ x.getLast? = some 1)
    (hv : v.length = n ∧ ∀ u ∈ v, lo ≤ u ∧ u ≤ .fin 1) {grid : List K} (hg : ∀ g ∈ grid, 0 ≤ g ∧ g ≤ 1) :
    ∃ out, interp1d other (finVec grid) (finVec x) v kind = .ok out ∧ out.length = grid.length ∧
      ∀ u ∈ out, lo ≤ u ∧ u ≤ .fin 1 := by
  have h0 : (0 : K) ∈ x := List.mem_of_head? hx.2.2.1
  have h1 : (1 : K) ∈ x := List.mem_of_getLast? hx.2.2.2
  rcases hk with rfl | ⟨rfl, rfl⟩
  · obtain ⟨out, e1, e2⟩ := C60_previous other (sortable_finVec hx.2.1) (yp := v)
      (by simp [finVec, hx.1, hv.1]) (by simp [finVec, hx.1, h2]) (finVec grid) (by
        intro g hg'
        obtain ⟨z, hz, rfl⟩ := List.mem_map.1 hg'
        exact ⟨by simp, _, List.mem_map_of_mem h0, Flt.fin_le_fin.2 (hg z hz).1⟩)
    refine ⟨out, e1, by rw [← e2.length_eq]; simp [finVec], fun u hu => ?_⟩
    obtain ⟨i, hi, rfl⟩ := List.getElem_of_mem hu
    obtain ⟨j, -, -, hj, -⟩ := (List.forall₂_iff_get.1 e2).2 i (by rw [e2.length_eq]; exact hi) hi
    exact hv.2 _ (List.mem_of_getElem? hj)
  · obtain ⟨ys, rfl, hys⟩ := exists_finVec_of_bounds hv.2
    obtain ⟨out, e1, e2⟩ := C60_linear other hx.2.1 (ys := ys) (by have := hv.1; simp [finVec] at this; omega)
      (by omega) grid fun g hg' => ⟨⟨0, h0, (hg g hg').1⟩, ⟨1, h1, (hg g hg').2⟩⟩
    refine ⟨finVec out, e1, by rw [e2.length_eq]; simp [finVec], fun u hu => ?_⟩
    obtain ⟨w, hw, rfl⟩ := List.mem_map.1 hu
    obtain ⟨i, hi, rfl⟩ := List.getElem_of_mem hw
    obtain ⟨i1, i2, -, -, y0, y1, -, -, -, k1, k2, -, -, k3, k4⟩ := C60_between ((List.forall₂_iff_get.1 e2).2 i (by rw [e2.length_eq]; exact hi) hi)
    have b0 := hys y0 (List.mem_of_getElem? k1)
    have b1 := hys y1 (List.mem_of_getElem? k2)
    exact ⟨Flt.fin_le_fin.2 ((le_min b0.1 b1.1).trans k3), Flt.fin_le_fin.2 (k4.trans (max_le b0.2 b1.2))⟩

theorem interp_unit (other : Interp K) {lo : Flt K} {n : Nat} {X : List (List K)} {Y : List (List (Flt K))} {kind : Kind}
    (h : UnitCurve lo n X Y kind) {grid : List K} (hg : ∀ g ∈ grid, 0 ≤ g ∧ g ≤ 1) :
    ∃ G, interpRows other (finVec grid) ⟨finMat n X, ⟨n, Y⟩, kind⟩ = .ok G ∧ G.length = X.length ∧
      ∀ r ∈ G, r.length = grid.length ∧ ∀ u ∈ r, lo ≤ u ∧ u ≤ .fin 1 := by
  have hrow : ∀ xy ∈ List.zip (X.map finVec) Y, ∃ out, interp1d other (finVec grid) xy.1 xy.2 kind = .ok out ∧
      out.length = grid.length ∧ ∀ u ∈ out, lo ≤ u ∧ u ≤ .fin 1 := by
    rintro ⟨a, v⟩ hm
    obtain ⟨m1, m2⟩ := List.of_mem_zip hm
    obtain ⟨x, hx, rfl⟩ := List.mem_map.1 m1
    exact row_interp other h.kind h.two (h.xs x hx) (h.ys v m2) hg
  choose! F hF using hrow
  refine ⟨(List.zip (X.map finVec) Y).map F, ?_, by simp [h.rows], ?_⟩
  · unfold interpRows
    exact mapM_eq_ok_map _ _ _ fun xy hm => (hF xy hm).1
  · intro r hr
    obtain ⟨xy, hm, rfl⟩ := List.mem_map.1 hr
    exact (hF xy hm).2

theorem checkCurve_unit {lo : Flt K} {n : Nat} {X : List (List K)} {Y : List (List (Flt K))} {kind : Kind}
    (h : UnitCurve lo n X Y kind) (thr : List (Flt K)) {g : Option (List (Flt K))}
    (hg : ∀ l, g = some l → ∃ grid : List K, l = finVec grid ∧ grid ≠ [] ∧ ∀ v ∈ grid, 0 ≤ v ∧ v ≤ 1) :
    checkCurve (⟨finMat n X, ⟨n, Y⟩, kind⟩, thr) g = .ok ⟨finMat n X, ⟨n, Y⟩, kind⟩ := by
  unfold checkCurve
  have e1 : ((finMat n X).rows.all fun r => r.all fun v => v.isFinite) = true := by
    simp [finMat, finVec, Flt.isFinite]
  have e2 : (Y.all fun r => r.all fun v => v.lt .pinf) = true := by
    simp only [List.all_eq_true]
    intro r hr v hv
    have := ((h.ys r hr).2 v hv).2
    rw [Flt.lt_iff]
    exact ⟨by simp, lt_of_le_of_lt this (lt_of_le_of_ne (by simp) (by simp))⟩
  have e3 : ((finMat n X).rows.all fun r => (diff r).all fun d => (Flt.fin 0).le d) = true := by
    simp only [finMat, List.all_eq_true, List.mem_map]
    rintro _ ⟨x, hx, rfl⟩
    exact List.all_eq_true.1 (sortable_iff.1 (sortable_finVec (h.xs x hx).2.1)).2
  have e4 : checkGrid ⟨finMat n X, ⟨n, Y⟩, kind⟩ g = .ok () := by
    cases g with
    | none => rfl
    | some l =>
      obtain ⟨grid, rfl, hne, hb⟩ := hg l rfl
      obtain ⟨a, t, rfl⟩ := List.exists_cons_of_ne_nil hne
      have h1 : ((finMat n X).rows.all fun r => (r.headD .nan).le (Flt.fin a)) = true := by
        simp only [finMat, List.all_eq_true, List.mem_map]
        rintro _ ⟨x, hx, rfl⟩
        have h0 := (h.xs x hx).2.2.1
        cases x with
        | nil => simp at h0
        | cons b x =>
          simp at h0
          subst h0
          simpa [finVec] using (hb a (by simp)).1
      have h2 : ((finMat n X).rows.all fun r => ((finVec (a :: t)).getLastD .nan).le (r.getLastD .nan)) = true := by
        simp only [finMat, List.all_eq_true, List.mem_map]
        rintro _ ⟨x, hx, rfl⟩
        have h0 := (h.xs x hx).2.2.2
        have : (finVec x).getLastD .nan = .fin 1 := by
          rw [List.getLastD_eq_getLast?, finVec, List.getLast?_map, h0]; rfl
        rw [this, List.getLastD_eq_getLast?, finVec, List.getLast?_map,
          List.getLast?_eq_getLast_of_ne_nil (by simp)]
        simpa using (hb _ (List.getLast_mem (by simp))).2
      simp only [finVec, List.map_cons, checkGrid] at h2 ⊢
      simp only [h1, h2, pyAssert_bind, if_true]
      rfl
  simp only [e1, e2, e3, e4, ok_bind, pyAssert_bind, if_true, pure_eq_ok]
  simp [finMat, h.rows, h.two]

/-! ### The three curves -/

theorem rises_row {x : List K} (h : Rises (finVec x)) :
    x.Pairwise (· ≤ ·) ∧ x.head? = some 0 ∧ x.getLast? = some 1 := by
  obtain ⟨xs, e, h1⟩ := h
  have : x = xs := List.map_injective_iff.2 (fun a b hab => by simpa using hab) e
  rw [this]; exact h1

theorem thresholds_two {s : List K} (hne : s ≠ []) {thr : List (Flt K)} (ht : IsThresholds s thr) : 2 ≤ thr.length := by
  obtain ⟨v, ds, rfl, -, -⟩ := isThresholds_shape hne ht
  simp

/-- C82: ROC and precision-recall curves are curves from 0 to 1 with values in [0, 1]; the values of a precision-recall-gain
curve are at most 1. -/
theorem unitCurves_std : UnitCurves (.fin 0) (rocCurve (K := K)) ∧ UnitCurves (.fin 0) (recallPrecisionCurve (K := K)) ∧
    UnitCurves .ninf (prgCurve (K := K)) := by
  refine ⟨fun y s W h => ?_, fun y s W h => ?_, fun y s W h => ?_⟩
  · obtain ⟨thr, ht, e⟩ := C64_roc h
    refine ⟨_, _, _, _, _, e, by simp, Or.inr ⟨rfl, rfl⟩, thresholds_two h.scores_ne ht, by simp, ?_, ?_⟩
    · intro x hx
      obtain ⟨w, hw, rfl⟩ := List.mem_map.1 hx
      exact ⟨by simp, rises_row (rises_fpr h ht hw)⟩
    · intro x hx
      simp only [List.map_map, List.mem_map] at hx
      obtain ⟨w, hw, rfl⟩ := hx
      refine ⟨by simp [finVec], fun u hu => ?_⟩
      simp only [Function.comp, finVec, List.map_map, List.mem_map] at hu
      obtain ⟨θ, -, rfl⟩ := hu
      have := (rate_bounds (h.weight_pos hw) (h.samples_ne hw) θ).2
      exact ⟨Flt.fin_le_fin.2 this.1, Flt.fin_le_fin.2 this.2⟩
  · obtain ⟨thr, ht, e⟩ := C64_recall_precision h
    refine ⟨_, _, _, _, _, e, by simp, Or.inl rfl, thresholds_two h.scores_ne ht, by simp, ?_, ?_⟩
    · intro x hx
      obtain ⟨w, hw, rfl⟩ := List.mem_map.1 hx
      exact ⟨by simp, rises_row (rises_recall h ht hw)⟩
    · intro x hx
      simp only [List.map_map, List.mem_map] at hx
      obtain ⟨w, hw, rfl⟩ := hx
      refine ⟨by simp [finVec, atThresholds_length h.scores_ne ht], fun u hu => ?_⟩
      obtain ⟨v, hv, rfl⟩ := List.mem_map.1 hu
      obtain ⟨θ, -, rfl⟩ := atThresholds_mem h.scores_ne ht hv
      have := precisionAt_bounds (h.weight_pos hw) (.fin θ)
      exact ⟨Flt.fin_le_fin.2 this.1, Flt.fin_le_fin.2 this.2⟩
  · obtain ⟨thr, ht, e⟩ := C64_prg h
    refine ⟨_, _, _, _, _, e, by simp, Or.inl rfl, thresholds_two h.scores_ne ht, by simp, ?_, ?_⟩
    · intro x hx
      obtain ⟨w, hw, rfl⟩ := List.mem_map.1 hx
      exact ⟨by simp, rises_row (rises_recGain h ht hw)⟩
    · intro x hx
      obtain ⟨w, hw, rfl⟩ := List.mem_map.1 hx
      refine ⟨by simp [atThresholds_length h.scores_ne ht], fun u hu => ?_⟩
      obtain ⟨θ, -, rfl⟩ := atThresholds_mem h.scores_ne ht hu
      exact ⟨Flt.ninf_le _, (precGainAt_le (h.weight_pos hw) (h.samples_ne hw) (.fin θ)).1⟩

/-! ### Success -/

theorem bootMat_finMat (N : Nat) (counts : List (List Nat)) :
    (bootMat N counts : Mat K) = finMat N (counts.map fun row => row.map fun (c : Nat) =>
      if c = 0 then 1 / 10000000000 else (c : K)) := by
  unfold bootMat finMat finVec
  simp only [List.map_map, Function.comp_def]

/-- The input of a curve function. -/
theorem curveInput_none {y : List Bool} {s : List K} (hne : y ≠ []) (hl : s.length = y.length) : CurveInput y s none :=
  ⟨hl, hne, by simp [weightRows], by
    intro w hw
    simp only [weightRows, Option.getD_none, List.mem_singleton] at hw
    subst hw
    refine ⟨by simp, fun v hv => ?_⟩
    rw [List.eq_of_mem_replicate hv]; exact one_pos⟩

theorem curveInput_boot {y : List Bool} {s : List K} {counts : List (List Nat)} (hne : y ≠ []) (hl : s.length = y.length)
    (hc : counts ≠ []) (hr : ∀ row ∈ counts, row.length = y.length) :
    CurveInput y s (some (counts.map fun row => row.map fun (c : Nat) => if c = 0 then 1 / 10000000000 else (c : K))) :=
  ⟨hl, hne, by simpa [weightRows] using hc, by
    intro w hw
    simp only [weightRows, Option.getD_some] at hw
    obtain ⟨row, hrow, rfl⟩ := List.mem_map.1 hw
    refine ⟨by simpa using hr row hrow, fun v hv => ?_⟩
    obtain ⟨c, -, rfl⟩ := List.mem_map.1 hv
    by_cases h0 : c = 0
    · rw [if_pos h0]; positivity
    · rw [if_neg h0]; exact_mod_cast Nat.pos_of_ne_zero h0⟩

/-- Predictions for two labels without NaN, where the log-probabilities of label 1 are the finite numbers `s`. -/
structure BinaryPreds (p : Mat K) (s : List K) : Prop where
  two : p.ncols = 2
  noNaN : ∀ r ∈ p.rows, NoNaN r
  score : IsPosScore p (finVec s)

theorem anyNaN_false {p : Mat K} (h : ∀ r ∈ p.rows, NoNaN r) : anyNaN p = false := by
  unfold anyNaN
  rw [List.any_eq_false]
  intro r hr
  rw [Bool.not_eq_true, any_isNaN]
  exact h r hr

/-- A possible reference: a finite number, or predictions for the same samples. -/
def GoodRef (p : Mat K) : RefArg K → Prop
  | .value r => ∃ x, r = .fin x
  | .preds q => q.rows.length = p.rows.length ∧ ∃ s, BinaryPreds q s

theorem default_grid : ∃ g : List K, (defaultGrid : List (Flt K)) = finVec g ∧ g.length = 100 ∧ ∀ v ∈ g, 0 ≤ v ∧ v ≤ 1 := by
  refine ⟨(List.range 100).map fun (i : Nat) => (i : K) / 99, ?_, by simp, ?_⟩
  · unfold defaultGrid finVec
    rw [List.map_map]; rfl
  · intro v hv
    obtain ⟨i, hi, rfl⟩ := List.mem_map.1 hv
    rw [List.mem_range] at hi
    have h1 : (i : K) ≤ 99 := by exact_mod_cast Nat.le_of_lt_succ hi
    exact ⟨by positivity, (div_le_one (by norm_num)).2 h1⟩

/-- The areas for valid input. -/
theorem unit_area {lo : Flt K} (hlo : lo = .ninf ∨ lo = .fin 0) {f : CurveF K} (hf : UnitCurves lo f)
    {y : List Bool} {s : List K} {W : Option (List (List K))} (h : CurveInput y s W) {g : Option (List (Flt K))}
    (hg : ∀ l, g = some l → ∃ grid : List K, l = finVec grid ∧ grid ≠ [] ∧ ∀ v ∈ grid, 0 ≤ v ∧ v ≤ 1) :
    ∃ c thr A, f y (finVec s) (W.map (finMat y.length)) = .ok (c, thr) ∧ checkCurve (c, thr) g = .ok c ∧
      area c.x c.y c.kind = .ok A ∧ A.length = (weightRows y.length W).length ∧ (∀ a ∈ A, lo ≤ a ∧ a ≤ .fin 1) ∧
      ∀ (other : Interp K) (l : List (Flt K)), g = some l → ∃ G, interpRows other l c = .ok G ∧ G.length = A.length ∧
        ∀ r ∈ G, r.length = l.length ∧ ∀ u ∈ r, lo ≤ u ∧ u ≤ .fin 1 := by
  obtain ⟨n, X, Y, kind, thr, e, hl, hu⟩ := hf y s W h
  obtain ⟨A, a1, a2, a3⟩ := area_unit hlo hu
  refine ⟨_, thr, A, e, checkCurve_unit hu thr hg, a1, a2.trans hl, a3, ?_⟩
  intro other l hl'
  obtain ⟨grid, rfl, -, hb⟩ := hg l hl'
  obtain ⟨G, g1, g2, g3⟩ := interp_unit other hu hb
  refine ⟨G, g1, g2.trans a2.symm, ?_⟩
  intro r hr
  rw [(g3 r hr).1]
  exact ⟨by simp [finVec], (g3 r hr).2⟩

theorem noNaN_of_le {l : List (Flt K)} {x : K} (h : ∀ a ∈ l, a ≤ .fin x) : NoNaN l := by
  intro hn
  exact absurd (h _ hn) (by simp)

/-- The reference areas for valid input. -/
theorem ref_areas {lo : Flt K} (hlo : lo = .ninf ∨ lo = .fin 0) {f : CurveF K} (hf : UnitCurves lo f)
    {y : List Bool} {p : Mat K} (hy : y ≠ []) (hl : y.length = p.rows.length) {ref : RefArg K} (hr : GoodRef p ref)
    {counts : List (List Nat)} (hc : counts ≠ []) (hcr : ∀ row ∈ counts, row.length = y.length) :
    ∃ r : Ref K × Flt K, refAreas f y (bootMat y.length counts) (counts.length : Int) ref = .ok r ∧
      (refVec counts.length r.1).length = counts.length ∧ NoNaN (refVec counts.length r.1) ∧
      (lo = .fin 0 → (∃ xs, refVec counts.length r.1 = finVec xs) ∧ ∃ x, r.2 = .fin x) := by
  cases ref with
  | value v =>
    obtain ⟨x, rfl⟩ := hr
    refine ⟨_, rfl, by simp [refVec], noNaN_replicate (by simp), fun _ => ⟨⟨List.replicate counts.length x, ?_⟩, x, rfl⟩⟩
    simp [refVec, finVec]
  | preds q =>
    obtain ⟨hq, s, h2, hnn, hs⟩ := hr
    have hsl : s.length = y.length := by
      have := hs.1
      simp [finVec] at this
      omega
    obtain ⟨cb, thrb, A, e1, e2, e3, e4, e5, -⟩ := unit_area hlo hf (curveInput_boot hy hsl hc hcr) (g := none) (by simp)
    obtain ⟨c, thr, B, k1, k2, k3, k4, k5, -⟩ := unit_area hlo hf (curveInput_none hy hsl) (g := none) (by simp)
    simp only [weightRows, Option.getD_some, List.length_map, Option.getD_none, List.length_singleton] at e4 k4
    obtain ⟨a, rfl⟩ := List.length_eq_one_iff.1 k4
    rw [Option.map_some, ← bootMat_finMat] at e1
    rw [Option.map_none] at k1
    refine ⟨(.paired A, a), ?_, e4, noNaN_of_le fun a ha => (e5 a ha).2, ?_⟩
    · unfold refAreas
      simp only [isPosScore_unique (isPosScore_colAt q) hs, e1, e2, e3, k1, k2, k3, ok_bind, e4, decide_true, pyAssert_bind, if_true, unpackOne, pure_eq_ok]
    · rintro rfl
      obtain ⟨xs, rfl, -⟩ := exists_finVec_of_bounds e5
      obtain ⟨x, ex, -⟩ := exists_finVec_of_bounds k5
      cases x with
      | nil => simp [finVec] at ex
      | cons x t =>
        simp only [finVec, List.map_cons, List.cons.injEq] at ex
        exact ⟨⟨xs, rfl⟩, x, ex.1⟩

/-- **C82, success.**  For labels 0 and 1, predictions without NaN where the log-probabilities of label 1 are finite, a
valid reference, a grid in [0, 1] (or the default) and a confidence between 0 and 1, `curve_boot` returns a result for every
outcome of the bootstrap.  The estimate, the curve and the envelope are between `lo` and 1: `lo` is 0 for ROC and
precision-recall curves.  For precision-recall-gain curves it is `-inf`, and then only the error bar without pairs is
covered. -/
theorem C82_success (other : Interp K) {lo : Flt K} (hlo : lo = .ninf ∨ lo = .fin 0) {f : CurveF K} (hf : UnitCurves lo f)
    {y : LabelVec} {p : Mat K} (hy : ClassInput y p) {s : List K} (hp : BinaryPreds p s) {ref : RefArg K}
    (hr : GoodRef p ref) {xGrid : Option (List (Flt K))}
    (hg : ∀ l, xGrid = some l → ∃ grid : List K, l = finVec grid ∧ grid ≠ [] ∧ ∀ v ∈ grid, 0 ≤ v ∧ v ≤ 1)
    {counts : List (List Nat)} (hc : counts ≠ []) (hcr : ∀ row ∈ counts, row.length = p.rows.length)
    {conf : K} (h0 : 0 < conf) (h1 : conf < 1) {pairwise : Bool} (hpw : pairwise = true → lo = .fin 0) :
    ∃ auc EB pval rows,
      curveBoot other y p ref f xGrid counts.length pairwise (.fin conf) counts = .ok ((auc, EB, pval), rows) ∧
      (lo ≤ auc ∧ auc ≤ .fin 1) ∧ (∀ x, auc = .fin x → Flt.fin 0 ≤ EB ∧ EB ≠ .nan) ∧
      (pairwise = false → lo = .fin 0 → EB ≤ .fin 1) ∧
      ∀ r ∈ rows, (lo ≤ r.2.1 ∧ r.2.1 ≤ .fin 1) ∧ lo ≤ r.2.2.1 ∧ r.2.2.1 ≤ r.2.2.2 ∧ r.2.2.2 ≤ .fin 1 := by
  have hbl : (boolLabels y).length = p.rows.length := by rw [boolLabels, List.length_map, hy.length]
  have hby : boolLabels y ≠ [] := by
    intro e
    rw [e] at hbl
    exact hy.nonempty (List.eq_nil_of_length_eq_zero hbl.symm)
  have hsl : s.length = (boolLabels y).length := by
    have := hp.score.1
    simp only [finVec, List.length_map] at this
    omega
  have hgrid : ∃ grid : List K, xGrid.getD defaultGrid = finVec grid ∧ grid ≠ [] ∧ ∀ v ∈ grid, 0 ≤ v ∧ v ≤ 1 := by
    cases xGrid with
    | some l => exact hg l rfl
    | none =>
      obtain ⟨g, e1, e2, e3⟩ := default_grid (K := K)
      exact ⟨g, e1, by rintro rfl; simp at e2, e3⟩
  set G := xGrid.getD defaultGrid with hG
  have hgrid' : ∀ l, some G = some l → ∃ grid : List K, l = finVec grid ∧ grid ≠ [] ∧ ∀ v ∈ grid, 0 ≤ v ∧ v ≤ 1 := by
    rintro l e
    rw [← Option.some.inj e]; exact hgrid
  have hcr' : ∀ row ∈ counts, row.length = (boolLabels y).length := by
    intro row hrow; rw [hbl]; exact hcr row hrow
  have hn : 1 ≤ counts.length := List.length_pos_iff.2 hc
  obtain ⟨cb, thrb, A, e1, e2, e3, e4, e5, e6⟩ := unit_area hlo hf (curveInput_boot hby hsl hc hcr') hgrid'
  obtain ⟨c, thr, B, k1, k2, k3, k4, k5, k6⟩ := unit_area hlo hf (curveInput_none hby hsl) hgrid'
  simp only [weightRows, Option.getD_some, List.length_map, Option.getD_none, List.length_singleton] at e4 k4
  obtain ⟨auc, rfl⟩ := List.length_eq_one_iff.1 k4
  obtain ⟨Gb, e7, e8, e9⟩ := e6 other G rfl
  obtain ⟨G0, k7, k8, k9⟩ := k6 other G rfl
  obtain ⟨yG, rfl⟩ := List.length_eq_one_iff.1 k8
  obtain ⟨r, r1, r2, r3, r4⟩ := ref_areas hlo hf hby hbl hr hc hcr'
  rw [Option.map_some, ← bootMat_finMat, hbl] at e1
  rw [Option.map_none] at k1
  rw [hbl] at r1
  have hAne : A ≠ [] := by
    intro e; rw [e] at e4; simp at e4; omega
  have hAnn : NoNaN A := noNaN_of_le fun a ha => (e5 a ha).2
  have hauc := k5 auc (by simp)
  -- the weights
  obtain ⟨w, hw⟩ : ∃ w, bootWeights (p.rows.length : Int) counts.length ((1 : K) / 10000000000) counts = .ok w := by
    refine ⟨counts.map fun row => row.map fun (c : Nat) => max ((1 : K) / 10000000000) (c : K), ?_⟩
    unfold bootWeights
    have : 1 ≤ p.rows.length := List.length_pos_iff.2 hy.nonempty
    have h3 : ((counts.map fun row => row.map fun (c : Nat) => max ((1 : K) / 10000000000) (c : K)).all
        fun row => decide ((row.length : Int) = p.rows.length)) = true := by
      simp only [List.all_eq_true, List.mem_map, decide_eq_true_eq]
      rintro _ ⟨row, hrow, rfl⟩
      simp [hcr row hrow]
    simp only [h3, List.length_map, decide_true, Bool.and_true, pyAssert_bind, if_true, pure_eq_ok]
    rw [if_pos (decide_eq_true (by omega)), if_pos (decide_eq_true (by omega))]
  obtain ⟨w1, -, -⟩ := bootWeights_mat hw
  -- the error bar
  obtain ⟨LB, UB, hper, -⟩ := C38_percentile hAne hAnn h0 h1
  obtain ⟨EB, hEB, hEB0, hEB1⟩ : ∃ EB, (if pairwise then errorBar (minusRef A r.1) (auc.sub r.2) (.fin conf)
      else errorBar A auc (.fin conf) : Py (Flt K)) = .ok EB ∧ (∀ x, auc = .fin x → Flt.fin 0 ≤ EB ∧ EB ≠ .nan) ∧
      (pairwise = false → lo = .fin 0 → EB ≤ .fin 1) := by
    cases pairwise with
    | false =>
      obtain ⟨b1, b2⟩ := C40_error_bar hper auc
      refine ⟨_, b1, b2, fun _ hl => ?_⟩
      subst hl
      obtain ⟨l, u, f1, f2, f3, f4, -⟩ := C38_percentile hAne hAnn h0 h1
      rw [hper] at f1
      simp only [Except.ok.injEq, Prod.mk.injEq] at f1
      obtain ⟨rfl, rfl⟩ := f1
      obtain ⟨xs, ex, hx⟩ := exists_finVec_of_bounds (l := [LB, UB, auc]) (by
        intro v hv
        simp only [List.mem_cons, List.not_mem_nil, or_false] at hv
        rcases hv with rfl | rfl | rfl
        · exact e5 _ f2
        · exact e5 _ f3
        · exact hauc)
      match xs, ex, hx with
      | [l, u, a], ex, hx =>
        simp only [finVec, List.map_cons, List.map_nil, List.cons.injEq, and_true] at ex
        obtain ⟨rfl, rfl, rfl⟩ := ex
        have q1 := hx l (by simp)
        have q2 := hx u (by simp)
        have q3 := hx a (by simp)
        simp only [Flt.sub_fin, Flt.fmax_fin, Flt.fin_le_fin]
        refine max_le ?_ ?_ <;> linarith
    | true =>
      obtain rfl := hpw rfl
      obtain ⟨⟨rs, hrs⟩, x, hx⟩ := r4 rfl
      obtain ⟨xs, ex, -⟩ := exists_finVec_of_bounds e5
      obtain ⟨as, ea, -⟩ := exists_finVec_of_bounds (l := [auc]) k5
      match as, ea with
      | [a], ea =>
        simp only [finVec, List.map_cons, List.map_nil, List.cons.injEq, and_true] at ea
        subst ea ex
        have hd : minusRef (finVec xs) r.1 = finVec (List.zipWith (· - ·) xs rs) := by
          rw [minusRef_eq, e4, hrs]
          unfold finVec
          rw [List.zipWith_map, List.map_zipWith]
          simp only [Flt.sub_fin]
        have hne : List.zipWith (· - ·) xs rs ≠ [] := by
          intro e
          have h5 := congrArg List.length e
          rw [hrs, finVec, List.length_map] at r2
          rw [finVec, List.length_map] at e4
          rw [List.length_zipWith, e4, r2, min_self, List.length_nil] at h5
          omega
        obtain ⟨e, l, u, g1, -, -, -, -, g2, -⟩ := C40_finite hne h0 h1 (a - x)
        refine ⟨.fin e, ?_, fun z _ => ⟨Flt.fin_le_fin.2 g2, by simp⟩, by simp⟩
        rw [hd, hx, Flt.sub_fin]
        simpa using g1
  -- the p-value
  obtain ⟨pv, hpv⟩ : ∃ pv, significance A r.1 = .ok pv := by
    obtain ⟨v, hv, -⟩ := C41_paired hAne (by rw [r2, e4]) hAnn r3
    refine ⟨.fin v, ?_⟩
    cases hr1 : r.1 with
    | paired q => rw [hr1] at hv; exact hv
    | scalar q =>
      rw [C41_scalar_is_constant A hAne, e4]
      rw [hr1] at hv
      exact hv
  -- the envelope
  have henv : ∀ j ∈ List.range G.length, ∃ b : Flt K × Flt K, percentile (Gb.map fun r => r.getD j .nan) (.fin conf) = .ok b ∧
      lo ≤ b.1 ∧ b.1 ≤ b.2 ∧ b.2 ≤ .fin 1 := by
    intro j hj
    rw [List.mem_range] at hj
    have hb : ∀ v ∈ Gb.map fun r => r.getD j .nan, lo ≤ v ∧ v ≤ .fin 1 := by
      intro v hv
      obtain ⟨row, hrow, rfl⟩ := List.mem_map.1 hv
      obtain ⟨b1, b2⟩ := e9 row hrow
      refine b2 _ ?_
      rw [List.getD_eq_getElem?_getD, List.getElem?_eq_getElem (by omega)]
      exact List.getElem_mem _
    obtain ⟨l, u, f1, f2, f3, f4, -⟩ := C38_percentile (boot := Gb.map fun r => r.getD j .nan)
      (by intro e; rw [List.map_eq_nil_iff] at e; rw [e] at e8; simp at e8; omega)
      (noNaN_of_le fun a ha => (hb a ha).2) h0 h1
    exact ⟨(l, u), f1, (hb l f2).1, f4, (hb u f3).2⟩
  have : Nonempty (Flt K × Flt K) := ⟨(.nan, .nan)⟩
  choose! E hE using henv
  have henv' : envelope Gb G.length (.fin conf) = .ok ((List.range G.length).map E) := by
    unfold envelope
    exact mapM_eq_ok_map _ _ _ fun j hj => (hE j hj).1
  refine ⟨auc, EB, pv, List.zip G (List.zip yG ((List.range G.length).map E)), ?_, hauc, hEB0, hEB1, ?_⟩
  · unfold curveBoot
    have hrc : ref.check p = .ok () := by
      cases ref with
      | value v =>
        obtain ⟨x, rfl⟩ := hr
        rfl
      | preds q =>
        obtain ⟨hq, s', hq2⟩ := hr
        unfold RefArg.check
        simp only [hq, hq2.two, hp.two, anyNaN_false hq2.noNaN, decide_true, Bool.and_self, pyAssert_bind, if_true,
          Bool.not_false]
        rfl
    rw [validate_ok hy, boolLabels_eq, isPosScore_unique (isPosScore_colAt p) hp.score]
    simp only [ok_bind, hp.two, decide_true, pyAssert_bind, if_true, hrc, ← hG, anyNaN_false hp.noNaN, Bool.not_false,
      k1, k2, k3, k7, unpackOne, (k9 yG (by simp)).1, hw, w1, e1, e2, e3, e4, e7, e8, r1, hEB, hpv, henv', pure_eq_ok]
    rw [if_pos (decide_eq_true (by omega)), if_pos]
    simp only [Bool.and_eq_true, List.all_eq_true, decide_eq_true_eq, true_and]
    exact fun r hr => (e9 r hr).1
  · rintro ⟨x, v, l, u⟩ hm
    obtain ⟨-, m2⟩ := List.of_mem_zip hm
    obtain ⟨m3, m4⟩ := List.of_mem_zip m2
    obtain ⟨j, hj, hju⟩ := List.mem_map.1 m4
    have := (hE j hj).2
    rw [hju] at this
    exact ⟨(k9 yG (by simp)).2 v m3, this⟩

/-! ### Coherence -/

/-- **C82, coherence.**  Whatever the curve function: the p-value is in [0, 1]; the error bar is not negative and not NaN if
the estimate (with `pairwise_CI` the difference to that of the reference) is finite; at each grid point the lower
end of the envelope is at most the upper end, and neither is NaN. -/
theorem C82_coherent {other : Interp K} {y : LabelVec} {p : Mat K} {ref : RefArg K} {f : CurveF K}
    {xGrid : Option (List (Flt K))} {nBoot : Int} {pairwise : Bool} {conf : Flt K} {counts : List (List Nat)}
    {auc EB pval : Flt K} {rows : List (CurveRow K)}
    (h : curveBoot other y p ref f xGrid nBoot pairwise conf counts = .ok ((auc, EB, pval), rows)) :
    (∃ v : K, pval = .fin v ∧ 0 ≤ v ∧ v ≤ 1) ∧
    (pairwise = false → ∀ x, auc = .fin x → Flt.fin 0 ≤ EB ∧ EB ≠ .nan) ∧
    (pairwise = true → ∀ r x z, ref = .value r → r = .fin z → auc = .fin x → Flt.fin 0 ≤ EB ∧ EB ≠ .nan) ∧
    (∀ r ∈ rows, r.2.2.1 ≤ r.2.2.2 ∧ r.2.2.1 ≠ .nan ∧ r.2.2.2 ≠ .nan) ∧
    ∃ c : K, conf = .fin c ∧ 0 < c ∧ c < 1 := by
  obtain ⟨n, grid, Y0, A, RA, R0, Y, -, h1, -, -, -, -, -, -, -, h2, hA, -, hY, -, h3, -, -, h4, h5, h6, -, h7⟩ :=
    C82_result h (isPosScore_colAt p)
  have hconf : ∀ {b : List (Flt K)} {l u : Flt K}, percentile b conf = .ok (l, u) → ∃ c : K, conf = .fin c ∧ 0 < c ∧ c < 1 := by
    intro b l u hb
    by_contra hcon
    rw [(C38_reject b conf).2.1] at hb
    · cases hb
    · intro c hc
      by_contra h8
      rw [not_or, not_le, not_le] at h8
      exact hcon ⟨c, hc, h8⟩
  refine ⟨?_, ?_, ?_, ?_, ?_⟩
  · obtain ⟨v, e, h8, h9, -⟩ := h6
    exact ⟨v, e, h8, h9⟩
  · intro hp x hx
    obtain ⟨LB, UB, e1, e2⟩ := h4 hp
    have := (C40_error_bar e1 auc).2 x hx
    rw [← e2] at this
    exact this
  · rintro hp r x z rfl rfl rfl
    obtain ⟨LB, UB, e1, e2⟩ := h5 hp
    obtain ⟨-, rfl⟩ := h3
    have := (C40_error_bar e1 ((Flt.fin x).sub (.fin z))).2 (x - z) (Flt.sub_fin x z)
    rw [← e2] at this
    exact this
  · rintro ⟨x, v, lo, hi⟩ hr
    obtain ⟨j, hj, e⟩ := List.getElem_of_mem hr
    obtain ⟨-, -, e3⟩ := h7 j x v lo hi (by rw [List.getElem?_eq_getElem hj, e])
    obtain ⟨c, rfl, c0, c1⟩ := hconf e3
    have hnn : NoNaN (Y.map fun r => r.getD j .nan) := by
      by_contra hc
      rw [(C38_reject _ _).1 hc] at e3; cases e3
    have hne : (Y.map fun r => r.getD j .nan) ≠ [] := by
      intro e0
      rw [List.map_eq_nil_iff] at e0
      rw [e0] at hY; simp at hY; omega
    obtain ⟨l, u, f1, f2, f3, f4, -⟩ := C38_percentile hne hnn c0 c1
    rw [e3] at f1
    simp only [Except.ok.injEq, Prod.mk.injEq] at f1
    obtain ⟨rfl, rfl⟩ := f1
    exact ⟨f4, fun e0 => hnn (e0 ▸ f2), fun e0 => hnn (e0 ▸ f3)⟩
  · cases pairwise with
    | false =>
      obtain ⟨LB, UB, e1, -⟩ := h4 rfl
      exact hconf e1
    | true =>
      obtain ⟨LB, UB, e1, -⟩ := h5 rfl
      exact hconf e1

theorem areaOf_unique {f : CurveF K} {y : List Bool} {s : List (Flt K)} {W : Option (Mat K)} {A B : List (Flt K)}
    (h : AreaOf f y s W A) (h' : AreaOf f y s W B) : A = B := by
  obtain ⟨c, t, e1, e2⟩ := h
  obtain ⟨c', t', e1', e2'⟩ := h'
  rw [e1] at e1'
  simp only [Except.ok.injEq, Prod.mk.injEq] at e1'
  obtain ⟨rfl, rfl⟩ := e1'
  rw [e2] at e2'
  exact Except.ok.inj e2'

/-- **C82, the reference itself.**  With its own predictions (or others with the same log-probabilities of label 1) as
reference a method gets p-value 1; with `pairwise_CI` the error bar is 0, provided the estimate is finite. -/
theorem C82_self {other : Interp K} {y : LabelVec} {p q : Mat K} {f : CurveF K}
    {xGrid : Option (List (Flt K))} {nBoot : Int} {pairwise : Bool} {conf : Flt K} {counts : List (List Nat)}
    {auc EB pval : Flt K} {rows : List (CurveRow K)}
    (h : curveBoot other y p (.preds q) f xGrid nBoot pairwise conf counts = .ok ((auc, EB, pval), rows))
    {s : List (Flt K)} (hs : IsPosScore p s) (hq : IsPosScore q s) :
    pval = .fin 1 ∧ (pairwise = true → EB = if auc.isFinite then .fin 0 else .nan) := by
  obtain ⟨n, grid, Y0, A, RA, R0, Y, rfl, h1, hcl, -, -, ha, -, -, hb, h2, hA, -, hY, -, ⟨s', hs', hRA, h3, hR0⟩, -, -, -, h5,
    ⟨v, rfl, -, -, hv⟩, -⟩ := C82_result h hs
  obtain rfl := isPosScore_unique hs' hq
  obtain rfl := areaOf_unique hRA hb
  obtain rfl : auc = R0 := by simpa using areaOf_unique ha hR0
  have hn : (0 : K) < n := by exact_mod_cast h1
  constructor
  · have hz : ∀ g : Flt K × Flt K → Bool, (∀ a, g (a, a) = true) → (RA.zip RA).countP g = n := by
      intro g hg
      rw [List.countP_eq_length.2, List.length_zip, h2, min_self]
      intro x hx
      obtain ⟨i, hi, rfl⟩ := List.getElem_of_mem hx
      rw [List.getElem_zip]
      exact hg _
    rw [hz _ (by simp), hz _ (by simp), min_self, div_self hn.ne'] at hv
    rw [hv]
    norm_num
  · intro hp
    obtain ⟨LB, UB, e1, rfl⟩ := h5 hp
    obtain ⟨-, -, -, -, c, rfl, c0, c1⟩ := C82_coherent h
    have hz : ∀ a ∈ List.zipWith Flt.sub RA RA, a = .fin 0 ∨ a = .nan := by
      intro a ha
      obtain ⟨i, hi, rfl⟩ := List.getElem_of_mem ha
      rw [List.getElem_zipWith]
      cases RA[i]'(by simpa using hi) with
      | fin x => left; rw [Flt.sub_fin, sub_self]
      | pinf => right; rfl
      | ninf => right; rfl
      | nan => right; rfl
    have hnn : NoNaN (List.zipWith Flt.sub RA RA) := by
      by_contra hc
      rw [(C38_reject _ _).1 hc] at e1; cases e1
    have hne : List.zipWith Flt.sub RA RA ≠ [] := by
      intro e0
      have := congrArg List.length e0
      rw [List.length_zipWith, h2, min_self, List.length_nil] at this
      omega
    obtain ⟨l, u, f1, f2, f3, -⟩ := C38_percentile hne hnn c0 c1
    rw [e1] at f1
    simp only [Except.ok.injEq, Prod.mk.injEq] at f1
    obtain ⟨rfl, rfl⟩ := f1
    obtain rfl : LB = .fin 0 := (hz _ f2).resolve_right fun e0 => hnn (e0 ▸ f2)
    obtain rfl : UB = .fin 0 := (hz _ f3).resolve_right fun e0 => hnn (e0 ▸ f3)
    cases auc with
    | fin x => simp [Flt.isFinite]
    | pinf => rfl
    | ninf => rfl
    | nan => rfl

/-! ### Rejected input -/

/-- **C82, rejected input.**  AssertionError for: labels and predictions that do not fit together; not exactly two
labels; a NaN in the predictions; no replicates; a NaN in the reference or a reference of another shape; and, for
the standard curves, a log-probability of label 1 that is not finite. -/
theorem C82_reject (other : Interp K) {y : LabelVec} {p : Mat K} (hp : p.Ok) {ref : RefArg K} (f : CurveF K)
    (xGrid : Option (List (Flt K))) (nBoot : Int) (pairwise : Bool) (conf : Flt K) (counts : List (List Nat)) :
    ((¬ ClassInput y p ∨ p.ncols ≠ 2 ∨ (∃ r ∈ p.rows, Flt.nan ∈ r) ∨ nBoot < 1 ∨ ref = .value .nan ∨
        (∃ q, ref = .preds q ∧ (q.rows.length ≠ p.rows.length ∨ q.ncols ≠ p.ncols ∨ ∃ r ∈ q.rows, Flt.nan ∈ r))) →
      curveBoot other y p ref f xGrid nBoot pairwise conf counts = .error .assertion) ∧
    ((f = rocCurve ∨ f = recallPrecisionCurve ∨ f = prgCurve) → (∃ r ∈ p.rows, (r.getD 1 .nan).isFinite = false) →
      curveBoot other y p ref f xGrid nBoot pairwise conf counts = .error .assertion) := by
  have hany : ∀ q : Mat K, (∃ r ∈ q.rows, Flt.nan ∈ r) → anyNaN q = true := by
    rintro q ⟨r, hr, hn⟩
    unfold anyNaN
    simp only [List.any_eq_true]
    exact ⟨r, hr, .nan, hn, rfl⟩
  have hchk : ref.check p = .ok () ∨ ref.check p = .error .assertion := by
    cases ref with
    | value r =>
      simp only [RefArg.check, pyAssert]
      split_ifs <;> simp
    | preds q =>
      simp only [RefArg.check, pyAssert_bind]
      simp only [pyAssert]
      split_ifs <;> simp
  have hmain : ∀ (g : CurveF K), (ClassInput y p → p.ncols = 2 → ref.check p = .ok () → 1 ≤ nBoot → anyNaN p = false →
      ∃ e : Py (Curve K × List (Flt K)), g (boolLabels y) (colAt p 1) none = e ∧ e = .error .assertion) →
      curveBoot other y p ref g xGrid nBoot pairwise conf counts = .error .assertion := by
    intro g hg
    unfold curveBoot
    by_cases hc : ClassInput y p
    swap
    · rw [validate_error hp hc]; rfl
    rw [validate_ok hc]
    simp only [ok_bind, pyAssert_bind]
    by_cases h2 : p.ncols = 2
    swap
    · rw [if_neg (by simpa using h2)]
    rw [if_pos (decide_eq_true h2)]
    rcases hchk with h3 | h3
    swap
    · simp only [h3, error_bind]
    simp only [h3, ok_bind]
    by_cases h4 : 1 ≤ nBoot
    swap
    · rw [if_neg (by simpa using h4)]
    rw [if_pos (decide_eq_true h4)]
    by_cases h5 : anyNaN p = false
    swap
    · rw [if_neg (by simpa using h5)]
    rw [if_pos (by simp [h5])]
    obtain ⟨e, e1, rfl⟩ := hg hc h2 h3 h4 h5
    simp only [boolLabels_eq, e1, error_bind]
  constructor
  · intro h
    apply hmain
    intro h1 h2 h3 h4 h5
    exfalso
    rcases h with h | h | h | h | rfl | ⟨q, rfl, h⟩
    · exact h h1
    · exact h h2
    · rw [hany p h] at h5; cases h5
    · omega
    · cases h3
    · unfold RefArg.check at h3
      simp only [bind_ok_iff, exists_unit, pyAssert_eq_ok, Bool.and_eq_true, decide_eq_true_eq, Bool.not_eq_true'] at h3
      rcases h with h | h | h
      · exact h h3.1.1
      · exact h h3.1.2
      · rw [hany q h] at h3; cases h3.2
  · rintro hf ⟨r, hr, hfin⟩
    apply hmain
    intro h1 h2 h3 h4 h5
    have hrej : binaryClfCurve (boolLabels y) (colAt p 1) none = .error .assertion := by
      apply C63_reject (by simp)
      rintro ⟨s, W, -, e, -⟩
      have hm : r.getD 1 .nan ∈ colAt p 1 := List.mem_map_of_mem hr
      rw [e] at hm
      obtain ⟨x, -, ex⟩ := List.mem_map.1 hm
      rw [← ex] at hfin
      cases hfin
    refine ⟨_, rfl, ?_⟩
    rcases hf with rfl | rfl | rfl
    · unfold rocCurve; rw [hrej]; rfl
    · unfold recallPrecisionCurve; rw [hrej]; rfl
    · unfold prgCurve; rw [hrej]; rfl

end

/-! ### Examples -/

/-- Four labels. -/
def bootY : LabelVec := ⟨'i', [0, 1, 1, 0]⟩

/-- Log-probabilities (here in units that are rational); one entry is `-inf`, which is allowed for label 0. -/
def bootP : Mat ℚ := ⟨2, [[.fin (-1), .fin (-2)], [.ninf, .fin 0], [.fin (-3), .fin (-1)], [.fin (-1), .fin (-1)]]⟩

/-- The reference. -/
def bootQ : Mat ℚ := ⟨2, [[.fin (-1), .fin (-1)], [.fin (-1), .fin (-1)], [.fin (-1), .fin (-1)], [.fin (-1), .fin (-1)]]⟩

theorem bootInput : ClassInput bootY bootP :=
  ⟨Or.inr rfl, by decide, by decide, rfl, by decide, by decide⟩

theorem bootPreds : BinaryPreds bootP [-2, 0, -1, -1] ∧ BinaryPreds bootQ [-1, -1, -1, -1] := by
  have key : ∀ (m : Mat ℚ) (s : List ℚ), colAt m 1 = finVec s → IsPosScore m (finVec s) := by
    intro m s e
    rw [← e]; exact isPosScore_colAt m
  refine ⟨⟨rfl, by simp [bootP, NoNaN], key _ _ (by decide +kernel)⟩,
    ⟨rfl, by simp [bootQ, NoNaN], key _ _ (by decide +kernel)⟩⟩

/-- Two bootstrap replicates. -/
def bootCounts : List (List Nat) := [[1, 1, 1, 1], [2, 0, 1, 1]]

/-- The hypotheses of `C82_success` hold for these data with the three curves. -/
example (other : Interp ℚ) : ∃ auc EB pval rows,
    curveBoot other bootY bootP (.preds bootQ) rocCurve none 2 true (.fin (95 / 100)) bootCounts =
      .ok ((auc, EB, pval), rows) ∧ auc ≤ .fin 1 := by
  obtain ⟨a, b, c, d, e, e1, -⟩ := C82_success other (Or.inr rfl) unitCurves_std.1 bootInput bootPreds.1
    (ref := .preds bootQ) ⟨rfl, _, bootPreds.2⟩ (xGrid := none) (by simp) (counts := bootCounts) (by decide) (by decide)
    (conf := 95 / 100) (by norm_num) (by norm_num) (pairwise := true) (by simp)
  exact ⟨a, b, c, d, e, e1.2⟩

example (other : Interp ℚ) : ∃ auc EB pval rows,
    curveBoot other bootY bootP (.preds bootQ) prgCurve (some [.fin 0, .fin (1 / 2)]) 2 false (.fin (95 / 100)) bootCounts =
      .ok ((auc, EB, pval), rows) ∧ auc ≤ .fin 1 := by
  obtain ⟨a, b, c, d, e, e1, -⟩ := C82_success other (Or.inl rfl) unitCurves_std.2.2 bootInput bootPreds.1
    (ref := .preds bootQ) ⟨rfl, _, bootPreds.2⟩ (xGrid := some [.fin 0, .fin (1 / 2)])
    (by rintro l h; cases h; exact ⟨[0, 1 / 2], rfl, by simp, by norm_num⟩) (counts := bootCounts) (by decide) (by decide)
    (conf := 95 / 100) (by norm_num) (by norm_num) (pairwise := false) (by simp)
  exact ⟨a, b, c, d, e, e1.2⟩

end Mlp.Props
