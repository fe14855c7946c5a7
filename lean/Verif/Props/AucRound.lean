import Verif.Props.CurveBootDouble
import Verif.Props.Auc

/-! # Property C116: accuracy of the areas under the curves in floating point arithmetic -/

set_option linter.unusedSectionVars false

namespace Mlp.Props
open Mlp.PerfR Mlp.Perf Mlp.BootR Mlp.Boot Mlp.Util Mlp.Spec Mlp.Lemmas Mlp.CurveR Mlp.Classif Mlp.Frame Mlp.Round

section
variable {K : Type} [Field K] [LinearOrder K] [IsStrictOrderedRing K] [FloorRing K] {rnd : K → K} {sumR : List K → K}

/-- Two lists agree up to `ε`. -/
def WithinL (ε : K) (xs ys : List K) : Prop := List.Forall₂ (fun x y => |x - y| ≤ ε) xs ys

/-- Changing the heights by at most `β` changes the area by at most `β` times the width. -/
theorem area_heights {kind : Kind} (hk : kind = .previous ∨ kind = .linear) {β : K} :
    ∀ {a : K} {xs ys zs : List K}, (a :: xs).Pairwise (· ≤ ·) → xs.length + 1 = ys.length → WithinL β ys zs →
    |pieceSum (pieceOf kind) (a :: xs) ys - pieceSum (pieceOf kind) (a :: xs) zs| ≤ β * ((a :: xs).getLast (by simp) - a)
  | a, [], ys, zs, _, _, _ => by simp [pieceSum]
  | a, b :: xs, [], _, _, hl, _ => by simp at hl
  | a, b :: xs, [_], _, _, hl, _ => by simp at hl
  | a, b :: xs, y0 :: y1 :: ys, zs, hp, hl, hw => by
    obtain ⟨z0, zs', h0, hw', rfl⟩ := List.forall₂_cons_left_iff.1 hw
    obtain ⟨z1, zs', h1, hw'', rfl⟩ := List.forall₂_cons_left_iff.1 hw'
    have ih := area_heights hk (List.pairwise_cons.1 hp).2 (by simpa using hl) hw'
    have hab : 0 ≤ b - a := sub_nonneg.2 ((List.pairwise_cons.1 hp).1 b (by simp))
    have hpc : |pieceOf kind a b y0 y1 - pieceOf kind a b z0 z1| ≤ β * (b - a) := by
      rw [abs_le] at h0 h1 ⊢
      rcases hk with rfl | rfl
      · simp only [pieceOf, rect]
        constructor <;> nlinarith
      · simp only [pieceOf, trap]
        constructor <;> nlinarith
    rw [List.getLast_cons (by simp)]
    simp only [pieceSum]
    rw [abs_le] at ih hpc ⊢
    constructor <;> linarith

/-- Summation by parts for trapezoids. -/
theorem trap_parts : ∀ {a y0 : K} {xs ys : List K}, xs.length = ys.length →
    pieceSum trap (a :: xs) (y0 :: ys) + pieceSum trap (y0 :: ys) (a :: xs) =
      (a :: xs).getLast (by simp) * (y0 :: ys).getLast (by simp) - a * y0
  | a, y0, [], ys, hl => by
    rw [List.length_nil, eq_comm, List.length_eq_zero_iff] at hl
    subst hl
    simp [pieceSum]
  | a, y0, b :: xs, [], hl => by simp at hl
  | a, y0, b :: xs, y1 :: ys, hl => by
    have ih := trap_parts (a := b) (y0 := y1) (xs := xs) (ys := ys) (by simpa using hl)
    rw [List.getLast_cons (by simp), List.getLast_cons (a := y0) (by simp)]
    simp only [pieceSum]
    rw [show trap a b y0 y1 = (b - a) * (y1 + y0) / 2 from rfl, show trap y0 y1 a b = (y1 - y0) * (b + a) / 2 from rfl]
    linear_combination ih

/-- Changing the points of a rising curve by at most `α` and `β` changes the area under its trapezoids by at most `α + β`. -/
theorem trap_area_within {α β : K} {xs ys xs' ys' : List K}
    (hx : xs.Pairwise (· ≤ ·) ∧ xs.head? = some 0 ∧ xs.getLast? = some 1)
    (hy : ys.Pairwise (· ≤ ·) ∧ ys.head? = some 0 ∧ ys.getLast? = some 1)
    (hx' : xs'.Pairwise (· ≤ ·) ∧ xs'.head? = some 0 ∧ xs'.getLast? = some 1)
    (hl : xs.length = ys.length) (h1 : WithinL α xs' xs) (h2 : WithinL β ys' ys) :
    |pieceSum trap xs' ys' - pieceSum trap xs ys| ≤ α + β := by
  have l1 := h1.length_eq
  have l2 := h2.length_eq
  have cons : ∀ {l : List K}, l.head? = some 0 → ∃ t, l = 0 :: t := by
    intro l h
    cases l with
    | nil => simp at h
    | cons a t => simp at h; exact ⟨t, by rw [h]⟩
  obtain ⟨x, rfl⟩ := cons hx.2.1
  obtain ⟨y, rfl⟩ := cons hy.2.1
  obtain ⟨x', rfl⟩ := cons hx'.2.1
  have last : ∀ {t : List K}, (0 :: t).getLast? = some 1 → (0 :: t).getLast (by simp) = (1 : K) := by
    intro t h
    rw [List.getLast?_eq_some_getLast (by simp)] at h
    simpa using h
  have e1 := last hx.2.2
  have e2 := last hy.2.2
  have e3 := last hx'.2.2
  have s1 := area_heights (kind := .linear) (Or.inr rfl) hx'.1 (by simp at l1 l2 hl ⊢; omega) h2
  have s2 := area_heights (kind := .linear) (Or.inr rfl) hy.1 (by simp at l1 l2 hl ⊢; omega) h1
  have p1 := trap_parts (a := 0) (y0 := 0) (xs := x) (ys := y) (by simpa using hl)
  have p2 := trap_parts (a := 0) (y0 := 0) (xs := x') (ys := y) (by simp at l1 hl; omega)
  rw [e3] at s1
  rw [e2] at s2
  rw [e1, e2] at p1
  rw [e3, e2] at p2
  simp only [pieceOf] at s1 s2
  rw [abs_le] at s1 s2 ⊢
  constructor <;> linarith

/-- Changing the points of a curve with heights in [0, 1] by at most `α` and `β` changes the area under its steps by at most
`2 α` for each step, and `β`. -/
theorem rect_area_within {α β : K} (hα : 0 ≤ α) {xs ys xs' ys' : List K} {n : Nat}
    (hx' : xs'.Pairwise (· ≤ ·) ∧ xs'.head? = some 0 ∧ xs'.getLast? = some 1) (hn : xs.length = n + 1)
    (hy : ∀ v ∈ ys, 0 ≤ v ∧ v ≤ 1) (hl : xs.length = ys.length) (h1 : WithinL α xs' xs) (h2 : WithinL β ys' ys) :
    |pieceSum rect xs' ys' - pieceSum rect xs ys| ≤ n * (2 * α) + β := by
  have l1 := h1.length_eq
  have l2 := h2.length_eq
  have steps : ∀ {n : Nat} {xs xs' ys : List K}, xs.length = n + 1 → xs.length = ys.length → (∀ v ∈ ys, 0 ≤ v ∧ v ≤ 1) →
      WithinL α xs' xs → |pieceSum rect xs' ys - pieceSum rect xs ys| ≤ n * (2 * α) := by
    intro n
    induction n with
    | zero =>
      intro xs xs' ys h1 h2 _ h4
      have := h4.length_eq
      obtain ⟨x, rfl⟩ := List.length_eq_one_iff.1 h1
      obtain ⟨x', rfl⟩ := List.length_eq_one_iff.1 (this.trans h1)
      simp [pieceSum]
    | succ n ih =>
      intro xs xs' ys h1 h2 h3 h4
      match xs, xs', ys, h4 with
      | a :: b :: xs, a' :: b' :: xs', y0 :: y1 :: ys, .cons ha (.cons hb hw) =>
        have := ih (xs := b :: xs) (xs' := b' :: xs') (ys := y1 :: ys) (by simpa using h1) (by simpa using h2)
          (fun v hv => h3 v (List.mem_cons_of_mem _ hv)) (.cons hb hw)
        have hy := h3 y0 (by simp)
        have e : |rect a' b' y0 y1 - rect a b y0 y1| ≤ 2 * α := by
          have e1 : rect a' b' y0 y1 - rect a b y0 y1 = y0 * ((b' - b) - (a' - a)) := by unfold rect; ring
          rw [e1, abs_mul, abs_of_nonneg hy.1]
          have e2 : |(b' - b) - (a' - a)| ≤ 2 * α := (abs_sub _ _).trans (by linarith)
          have := abs_nonneg ((b' - b) - (a' - a))
          nlinarith [hy.2]
        simp only [pieceSum]
        push_cast
        rw [abs_le] at this e ⊢
        constructor <;> linarith
      | [], _, _, .nil => simp at h1
      | [_], _, _, _ => simp at h1
      | _ :: _ :: _, _, [], _ => simp at h2
      | _ :: _ :: _, _, [_], _ => simp at h2
  have cons : ∀ {l : List K}, l.head? = some 0 → ∃ t, l = 0 :: t := by
    intro l h
    cases l with
    | nil => simp at h
    | cons a t => simp at h; exact ⟨t, by rw [h]⟩
  have s2 := steps hn hl hy h1
  obtain ⟨x', rfl⟩ := cons hx'.2.1
  have e3 : (0 :: x').getLast (by simp) = (1 : K) := by
    have h := hx'.2.2
    rw [List.getLast?_eq_some_getLast (by simp)] at h
    simpa using h
  have s1 := area_heights (kind := .previous) (Or.inl rfl) hx'.1 (by simp at l1 l2 hl ⊢; omega) h2
  rw [e3] at s1
  simp only [pieceOf] at s1
  rw [abs_le] at s1 s2 ⊢
  constructor <;> linarith

theorem withinL_of {ε : K} {α : Type} {f : α → K} {l : List α} {xs : List K}
    (h : List.Forall₂ (fun a v => ∃ x, v = Flt.fin x ∧ |x - f a| ≤ ε) l (finVec xs)) : WithinL ε xs (l.map f) := by
  induction l generalizing xs with
  | nil =>
    cases xs with
    | nil => exact .nil
    | cons x xs => cases h
  | cons a l ih =>
    cases xs with
    | nil => cases h
    | cons x xs =>
      cases h with
      | cons h1 h2 =>
        obtain ⟨x', e, h1⟩ := h1
        cases e
        exact .cons h1 (ih h2)

theorem rises_fin {xs : List K} (h : Rises (finVec xs)) : xs.Pairwise (· ≤ ·) ∧ xs.head? = some 0 ∧ xs.getLast? = some 1 := by
  obtain ⟨ys, e, h⟩ := h
  have : xs = ys := List.map_injective_iff.2 (fun _ _ h => by simpa using h) e
  rw [this]
  exact h

theorem rise_unit {xs : List K} (h : xs.Pairwise (· ≤ ·) ∧ xs.head? = some 0 ∧ xs.getLast? = some 1) :
    ∀ v ∈ xs, 0 ≤ v ∧ v ≤ 1 := by
  obtain ⟨hp, h0, h3⟩ := h
  intro v hv
  constructor
  · obtain ⟨a, l, e⟩ := List.exists_cons_of_ne_nil (List.ne_nil_of_mem hv)
    rw [e] at h0 hp hv
    simp only [List.head?_cons, Option.some.injEq] at h0
    subst h0
    rcases List.mem_cons.1 hv with rfl | hv
    · exact le_rfl
    · exact (List.pairwise_cons.1 hp).1 v hv
  · have hne := List.ne_nil_of_mem hv
    rw [List.getLast?_eq_some_getLast hne, Option.some.injEq] at h3
    rw [← h3]
    rcases List.mem_iff_getElem.1 hv with ⟨j, hj, rfl⟩
    rw [List.getLast_eq_getElem]
    rcases Nat.lt_or_ge j (xs.length - 1) with hlt | hge
    · exact (List.pairwise_iff_getElem.1 hp) _ _ _ _ hlt
    · have : j = xs.length - 1 := by omega
      subst this
      exact le_rfl

theorem two_samples {y : List Bool} (hp : true ∈ y) (hn : false ∈ y) : 2 ≤ y.length := by
  match y with
  | [] => simp at hp
  | [b] => simp at hp hn; rw [hp] at hn; exact absurd hn (by decide)
  | _ :: _ :: _ => simp

/-- The rounding errors of adding up the area of `n` samples. -/
theorem area_pow_le {u : K} (hu : 0 ≤ u) {n m : Nat} (hnu : n * u ≤ 1 / 100) (h2 : 2 ≤ n) (hm : m ≤ n + 1) :
    (1 + u) ^ (m + 2) - 1 ≤ 5 * (n * u) := by
  have h1 : ((m + 2 : Nat) : K) ≤ 5 / 2 * n := by
    have e1 : ((m + 2 : Nat) : K) ≤ ((n + 3 : Nat) : K) := by exact_mod_cast (by omega)
    have e2 : (2 : K) ≤ n := by exact_mod_cast h2
    push_cast at e1 ⊢
    linarith
  have h3 : ((m + 2 : Nat) : K) * u ≤ 5 / 2 * n * u := mul_le_mul_of_nonneg_right h1 hu
  refine (pow_one_add_le hu (by linarith)).trans (by linarith)

section
variable (hr : FloatRounding rnd) (hs : AddsAlongTrees rnd sumR) {y : List Bool} {s : List K} {W : Option (List (List K))}
  (h : CurveInput y s W) {u : K} (hu : 0 ≤ u) (he : RelError u rnd) (hnu : y.length * u ≤ 1 / 100)
include hr hs h hu he hnu

/-- **C116, ROC.**  The area under a ROC curve as computed in floating point arithmetic, with weights or without: for `n`
samples of both classes and rounding errors of at most `u`, if `12 n u` times the total weight is at most the weight of the
negative samples, it is within `36 n u` times the ratio of total to negative weight of
the Mann-Whitney statistic of the (weighted) samples, whatever the order in which `np.sum` adds. -/
theorem C116_roc (hN : W = none → ∀ k : Nat, k ≤ y.length → rnd (k : K) = k) (hpos : true ∈ y) (hneg : false ∈ y)
    {c : Curve K} {thr : List (Flt K)}
    (hc : rocCurveR rnd sumR y (finVec s) (W.map (finMat y.length)) = .ok (c, thr)) :
    ∃ A : List K, areaR rnd sumR c.x c.y c.kind = .ok (finVec A) ∧
      List.Forall₂ (fun w a =>
        12 * (y.length * u) * (posTotal (samples y s w) + negTotal (samples y s w)) ≤ negTotal (samples y s w) →
        |a - mannWhitney (samples y s w)| ≤
        36 * (y.length * u) * ((posTotal (samples y s w) + negTotal (samples y s w)) / negTotal (samples y s w)))
        (weightRows y.length W) A := by
  obtain ⟨ht, hk, -, -, hx, hy⟩ := C104_roc hr h hN hc
  obtain ⟨ax, ay⟩ := C106_roc hr h hu he hnu hN hpos hneg hc
  have hnx : c.x.ncols = thr.length ∧ c.y.ncols = thr.length := by
    rw [rocR_eq hr h hN] at hc
    split_ifs at hc
    rw [Except.ok.injEq, Prod.mk.injEq] at hc
    obtain ⟨rfl, rfl⟩ := hc
    exact ⟨rfl, rfl⟩
  obtain ⟨⟨n1, R1⟩, ⟨n2, R2⟩, kind⟩ := c
  simp only at hx hy ax ay hk hnx
  obtain ⟨rfl, rfl⟩ := hnx
  subst hk
  obtain ⟨X, rfl, hX⟩ := rises_rows hx
  obtain ⟨Y, rfl, hY⟩ := rises_rows hy
  rw [List.forall₂_map_right_iff] at ax ay
  have h2 := thresholds_two h.scores_ne ht
  have hthr : thr.length ≤ y.length + 1 := by rw [← h.length]; exact thresholds_le ht
  refine ⟨_, areaR_closed h2 (fun r hr => (hX r hr).1) (fun r hr => (hY r hr).1) (ax.length_eq.symm.trans ay.length_eq)
    (Or.inr rfl), ?_⟩
  rw [List.forall₂_iff_get] at ax ay ⊢
  refine ⟨by rw [List.length_zipWith, ← ax.1, ← ay.1, min_self], fun i h1 h2' h12 => ?_⟩
  have hi : i < X.length := by rw [← ax.1]; exact h1
  have hi' : i < Y.length := by rw [← ay.1]; exact h1
  have bx := withinL_of (ax.2 i h1 hi h12)
  have by' := withinL_of (ay.2 i h1 hi' h12)
  have hwm := List.getElem_mem h1
  simp only [List.get_eq_getElem, List.getElem_zipWith] at bx by' ⊢
  generalize (weightRows y.length W)[i] = w at hwm bx by' ⊢
  have gX := hX _ (List.getElem_mem hi)
  have gY := hY _ (List.getElem_mem hi')
  have ex := rises_fin (rises_fpr h ht hwm)
  have ey := rises_fin (rises_recall h ht hwm)
  have near := trap_area_within ex ey gX.2 (by simp) bx by'
  have hMW : pieceSum trap (thr.map (fprAt (samples y s w))) (thr.map (recallAt (samples y s w))) =
      mannWhitney (samples y s w) :=
    rates_area ht (h.score_mem hwm) (h.weight_pos hwm) (h.exists_label hwm hpos) (h.exists_label hwm hneg)
  rw [hMW] at near
  have unit := rise_unit gY.2
  have comp := (row_areaR hr hs hu he (Or.inr rfl) h2 gX gY.1 unit).2.2
  have hpow := area_pow_le hu hnu (two_samples hpos hneg) hthr
  have hNg := negTotal_pos (h.weight_pos hwm) (h.exists_label hwm hneg)
  have hP := posTotal_pos (h.weight_pos hwm) (h.exists_label hwm hpos)
  have hR : 1 ≤ (posTotal (samples y s w) + negTotal (samples y s w)) / negTotal (samples y s w) := by
    rw [le_div_iff₀ hNg]; linarith
  generalize (posTotal (samples y s w) + negTotal (samples y s w)) / negTotal (samples y s w) = R at hR near ⊢
  have hnu0 : 0 ≤ y.length * u := by positivity
  have hmul := mul_le_mul_of_nonneg_left hR hnu0
  simp only [pieceOf] at comp
  rw [abs_le] at near comp ⊢
  constructor <;> linarith

end

section
variable (hr : FloatRounding rnd) (hs : AddsAlongTrees rnd sumR) {y : List Bool} {s : List K}
  (h : CurveInput y s none) {u : K} (hu : 0 ≤ u) (he : RelError u rnd) (hnu : y.length * u ≤ 1 / 100)
  (hN : ∀ k : Nat, k ≤ y.length → rnd (k : K) = k) (hpos : true ∈ y) (hneg : false ∈ y)
include hr hs h hu he hnu hN hpos hneg

theorem rnd_within {f : Flt K → K} {thr : List (Flt K)} (hf : ∀ θ ∈ thr, 0 ≤ f θ ∧ f θ ≤ 1) :
    WithinL u (thr.map fun θ => rnd (f θ)) (thr.map f) := by
  unfold WithinL
  rw [List.forall₂_map_left_iff, List.forall₂_map_right_iff, List.forall₂_same]
  exact fun θ hθ => rnd_unit hu he (hf θ hθ).1 (hf θ hθ).2

/-- **C116, without weights.**  Without weights the computed area under the ROC curve is within `6 n u` of the Mann-Whitney
statistic, and the computed area under the recall-precision curve within `8 n u` of the exact one. -/
theorem C116_unweighted :
    (∃ c thr a, rocCurveR rnd sumR y (finVec s) none = .ok (c, thr) ∧ areaR rnd sumR c.x c.y c.kind = .ok [.fin a] ∧
      |a - mannWhitney (samples y s (List.replicate y.length 1))| ≤ 6 * (y.length * u)) ∧
    ∃ c thr a c' thr' b, recallPrecisionCurveR rnd sumR y (finVec s) none = .ok (c, thr) ∧
      areaR rnd sumR c.x c.y c.kind = .ok [.fin a] ∧ recallPrecisionCurve y (finVec s) none = .ok (c', thr') ∧
      area c'.x c'.y c'.kind = .ok [.fin b] ∧ |a - b| ≤ 8 * (y.length * u) := by
  have hw : List.replicate y.length (1 : K) ∈ weightRows y.length (none : Option (List (List K))) := by simp [weightRows]
  obtain ⟨thr, ht, e1, e2⟩ := C106_unweighted (sumR := sumR) hr h hN hpos hneg
  have h2 := thresholds_two h.scores_ne ht
  have hthr : thr.length ≤ y.length + 1 := by rw [← h.length]; exact thresholds_le ht
  obtain ⟨-, -, -, -, rx, ry⟩ := C104_roc (W := none) hr h (fun _ => hN) e1
  have gx := rises_fin (rises_fpr h ht hw)
  have gy := rises_fin (rises_recall h ht hw)
  generalize hS : samples y s (List.replicate y.length 1) = S at *
  have gx' := rises_fin (rx (finVec (thr.map fun θ => rnd (fprAt S θ))) (by simp [finMat])).1
  have gy' := rises_fin (ry (finVec (thr.map fun θ => rnd (recallAt S θ))) (by simp [finMat])).1
  have ux := rnd_within hr hs h hu he hnu hN hpos hneg (f := fprAt S) (thr := thr) fun θ hθ =>
    rise_unit gx _ (List.mem_map_of_mem hθ)
  have uy := rnd_within hr hs h hu he hnu hN hpos hneg (f := recallAt S) (thr := thr) fun θ hθ =>
    rise_unit gy _ (List.mem_map_of_mem hθ)
  have hpow := area_pow_le hu hnu (two_samples hpos hneg) hthr
  have hn2 : (2 : K) ≤ y.length := by exact_mod_cast two_samples hpos hneg
  have hnu2 : 2 * u ≤ y.length * u := mul_le_mul_of_nonneg_right hn2 hu
  constructor
  · refine ⟨_, thr, _, e1, areaR_closed h2 (by simp) (by simp) (by simp) (Or.inr rfl), ?_⟩
    have near := trap_area_within gx gy gx' (by simp) ux uy
    have hMW : pieceSum trap (thr.map (fprAt S)) (thr.map (recallAt S)) = mannWhitney S := by
      rw [← hS]
      exact rates_area ht (h.score_mem hw) (h.weight_pos hw) (h.exists_label hw hpos) (h.exists_label hw hneg)
    have comp := (row_areaR hr hs hu he (Or.inr rfl) h2 ⟨by simp, gx'⟩ (by simp) (rise_unit gy')).2.2
    simp only [pieceOf] at comp
    rw [hMW] at near
    rw [abs_le] at near comp ⊢
    constructor <;> linarith
  · have e3 := recall_precision_of h ht
    simp only [weightRows, Option.map_none, Option.getD_none, List.map_cons, List.map_nil, hS] at e3
    have plen : ∀ g : Flt K → K, (atThresholds g thr).length = thr.length := by
      intro g
      match thr, h2 with
      | _ :: _ :: _, _ => simp [atThresholds]
    refine ⟨_, thr, _, _, thr, _, e2, areaR_closed h2 (by simp) (by simpa using plen _) (by simp) (Or.inl rfl), e3,
      C61_area h2 (by simp) (by simpa using plen _) (by simp) (Or.inl rfl), ?_⟩
    have hprec : ∀ θ, 0 ≤ precisionAt S θ ∧ precisionAt S θ ≤ 1 := fun θ =>
      precisionAt_bounds (by rw [← hS]; exact h.weight_pos hw) θ
    have hmem : ∀ {g : Flt K → K} {v : K}, v ∈ atThresholds g thr → ∃ θ, v = g θ := by
      intro g v hv
      match thr, h2 with
      | a :: b :: l, _ =>
        simp only [atThresholds, List.mem_cons, List.mem_map] at hv
        rcases hv with rfl | rfl | ⟨θ, -, rfl⟩ <;> exact ⟨_, rfl⟩
    have up : WithinL u (atThresholds (fun θ => rnd (precisionAt S θ)) thr) (atThresholds (precisionAt S) thr) := by
      have one : ∀ θ, |rnd (precisionAt S θ) - precisionAt S θ| ≤ u := fun θ => rnd_unit hu he (hprec θ).1 (hprec θ).2
      match thr, h2 with
      | a :: b :: l, _ =>
        refine .cons (one _) (.cons (one _) ?_)
        rw [List.forall₂_map_left_iff, List.forall₂_map_right_iff, List.forall₂_same]
        exact fun θ _ => one θ
    obtain ⟨m, hm⟩ : ∃ m, thr.length = m + 1 := ⟨thr.length - 1, by omega⟩
    have near := rect_area_within hu (xs := thr.map (recallAt S)) (n := m) gy' (by simpa using hm) (fun v hv => by
      obtain ⟨θ, rfl⟩ := hmem hv
      exact hprec θ) (by simp [plen]) uy up
    have comp := (row_areaR hr hs hu he (Or.inl rfl) h2 ⟨by simp, gy'⟩ (plen _) (y := atThresholds (fun θ => rnd (precisionAt S θ)) thr)
      fun v hv => by
        obtain ⟨θ, rfl⟩ := hmem hv
        exact ⟨hr.nonneg (hprec θ).1, hr.le_one (hprec θ).2⟩).2.2
    simp only [pieceOf] at comp ⊢
    have hmn : (m : K) * (2 * u) ≤ y.length * (2 * u) :=
      mul_le_mul_of_nonneg_right (by exact_mod_cast (by omega)) (by linarith)
    rw [abs_le] at near comp ⊢
    constructor <;> linarith

end

end
end Mlp.Props
