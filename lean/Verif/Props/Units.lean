import Verif.Spec.Units
import Verif.Props.Exchange

/-!
# C146: the units of the losses do not matter
-/

namespace Mlp.Props
set_option linter.unusedSectionVars false
open Mlp Mlp.Lemmas Mlp.Paper Mlp.Boot Mlp.Spec

noncomputable section

variable {c d : ℝ} (hc : 0 < c)
include hc

theorem re_isNaN (a : Flt ℝ) : (reFlt c d a).isNaN = a.isNaN := by cases a <;> rfl
theorem re_isFinite (a : Flt ℝ) : (reFlt c d a).isFinite = a.isFinite := by cases a <;> rfl

theorem re_le_re (a b : Flt ℝ) : reFlt c d a ≤ reFlt c d b ↔ a ≤ b := by
  cases a <;> cases b <;> simp [reFlt, hc]

theorem re_eq_re (a b : Flt ℝ) : reFlt c d a = reFlt c d b ↔ a = b := by
  cases a <;> cases b <;> simp [reFlt, hc.ne']

theorem re_le (a b : Flt ℝ) : (reFlt c d a).le (reFlt c d b) = a.le b := by
  unfold Flt.le
  simp only [re_isNaN hc, re_le_re hc]

theorem re_lt (a b : Flt ℝ) : (reFlt c d a).lt (reFlt c d b) = a.lt b := by
  unfold Flt.lt
  simp only [re_isNaN hc, ← not_le, re_le_re hc]

theorem re_eq (a b : Flt ℝ) : (reFlt c d a).eq (reFlt c d b) = a.eq b := by
  unfold Flt.eq
  simp only [re_isNaN hc, re_eq_re hc]

theorem re_zero : reFlt c 0 (.fin 0) = .fin 0 := by simp [reFlt]

theorem re_neg (a : Flt ℝ) : (reFlt c 0 a).neg = reFlt c 0 a.neg := by
  cases a <;> simp [reFlt, Flt.neg]

theorem re_add (d' : ℝ) (a b : Flt ℝ) : (reFlt c d a).add (reFlt c d' b) = reFlt c (d + d') (a.add b) := by
  cases a <;> cases b <;> simp [reFlt, Flt.add]
  ring

theorem re_sub (a b : Flt ℝ) : (reFlt c d a).sub (reFlt c d b) = reFlt c 0 (a.sub b) := by
  cases a <;> cases b <;> simp [reFlt, Flt.sub, Flt.add, Flt.neg]
  ring

theorem re_fmax (a b : Flt ℝ) : (reFlt c d a).fmax (reFlt c d b) = reFlt c d (a.fmax b) := by
  unfold Flt.fmax
  simp only [re_isNaN hc]
  split_ifs
  · rfl
  · rfl
  · rcases le_total a b with h | h
    · rw [max_eq_right h, max_eq_right ((re_le_re hc _ _).2 h)]
    · rw [max_eq_left h, max_eq_left ((re_le_re hc _ _).2 h)]

theorem re_clip (a lo hi : Flt ℝ) : (reFlt c d a).clip (reFlt c d lo) (reFlt c d hi) = reFlt c d (a.clip lo hi) := by
  unfold Flt.clip
  simp only [re_lt hc]
  split_ifs <;> rfl

theorem re_any_nan (x : List (Flt ℝ)) : ((x.map (reFlt c d)).any fun v => v.isNaN) = x.any fun v => v.isNaN := by
  rw [List.any_map]
  congr 1
  funext v
  exact re_isNaN hc v

theorem re_within (lo hi : Flt ℝ) (x : List (Flt ℝ)) : within (reFlt c d lo) (reFlt c d hi) (x.map (reFlt c d)) = within lo hi x := by
  unfold within
  rw [List.all_map, List.all_map]
  congr 2 <;> (funext v; exact re_le hc _ _)

theorem re_uninformative (x : List (Flt ℝ)) : uninformative (x.map (reFlt c d)) = uninformative x := by
  unfold uninformative
  rw [List.length_map, List.all_map]
  congr 4
  funext v
  exact re_isFinite hc v

theorem re_finVals (x : List (Flt ℝ)) : finVals (x.map (reFlt c d)) = (finVals x).map fun v => c * v + d := by
  induction x with
  | nil => rfl
  | cons a l ih => cases a <;> simp [finVals, reFlt] at ih ⊢ <;> exact ih

theorem re_sum (x : List (Flt ℝ)) : Flt.sum (x.map (reFlt c d)) = reFlt c (x.length * d) (Flt.sum x) := by
  induction x with
  | nil => simp [Flt.sum, reFlt]
  | cons a l ih =>
    rw [List.map_cons, flt_sum_cons, flt_sum_cons, ih, re_add hc, List.length_cons]
    congr 1
    push_cast
    ring

theorem re_mean (x : List (Flt ℝ)) : Flt.mean (x.map (reFlt c d)) = reFlt c d (Flt.mean x) := by
  unfold Flt.mean
  rw [re_sum hc, List.length_map]
  by_cases h0 : x.length = 0
  · rw [List.length_eq_zero_iff] at h0
    subst h0
    simp [Flt.sum, Flt.div, Flt.signInf, reFlt]
  · have h1 : (x.length : ℝ) ≠ 0 := by exact_mod_cast h0
    cases Flt.sum x with
    | fin s =>
      simp only [reFlt, Flt.div, h1, if_false]
      congr 1
      field_simp
    | pinf => simp only [reFlt, Flt.div]; split_ifs <;> rfl
    | ninf => simp only [reFlt, Flt.div]; split_ifs <;> rfl
    | nan => rfl

omit hc in
theorem sum_affine (xs : List ℝ) : (xs.map fun v => c * v + d).sum = c * xs.sum + xs.length * d := by
  induction xs with
  | nil => simp
  | cons a l ih => simp only [List.map_cons, List.sum_cons, ih, List.length_cons]; push_cast; ring

omit hc in
theorem re_meanK {xs : List ℝ} (h : xs ≠ []) : meanK (xs.map fun v => c * v + d) = c * meanK xs + d := by
  have h1 : (xs.length : ℝ) ≠ 0 := by exact_mod_cast fun h0 => h (List.length_eq_zero_iff.1 h0)
  unfold meanK
  rw [sum_affine, List.length_map]
  field_simp

omit hc in
theorem re_varK (b : ℝ) {xs : List ℝ} (h : xs ≠ []) : varK b (xs.map fun v => c * v + d) = c ^ 2 * varK b xs := by
  unfold varK
  rw [re_meanK h, List.length_map, List.map_map, ← mul_div_assoc, ← List.sum_map_mul_left]
  congr 3
  funext v
  simp only [Function.comp]
  ring

theorem sqrt_scale (v : ℝ) : Real.sqrt (c ^ 2 * v) = c * Real.sqrt v := by
  rw [Real.sqrt_mul (sq_nonneg c), Real.sqrt_sq hc.le]

omit hc in
theorem informative_ne {x : List (Flt ℝ)} (h : ¬ uninformative x = true) : finVals x ≠ [] := by
  rw [uninformative_iff] at h
  push Not at h
  obtain ⟨h1, xs, rfl⟩ := h
  rw [finVals_finVec]
  rintro rfl
  simp [finVec] at h1

theorem re_tEB (T : Nat → RefDist) (x : List (Flt ℝ)) (q : Flt ℝ) : tEB T (x.map (reFlt c d)) q = (tEB T x q).map (reFlt c 0) := by
  unfold tEB
  simp only [re_any_nan hc, re_uninformative hc, re_finVals hc, List.length_map, pyAssert_bind]
  by_cases h1 : (!(x.any fun v => v.isNaN)) = true
  swap
  · rw [if_neg h1, if_neg h1]; rfl
  rw [if_pos h1, if_pos h1]
  by_cases h2 : confOk q = true
  swap
  · rw [if_neg h2, if_neg h2]; rfl
  rw [if_pos h2, if_pos h2]
  by_cases hu : uninformative x = true
  · rw [if_pos hu, if_pos hu]; rfl
  rw [if_neg hu, if_neg hu, re_varK _ (informative_ne hu), sqrt_scale hc]
  set LB := (T ((finVals x).length - 1)).ppf ((1 - realOf q) / 2)
  set UB := (T ((finVals x).length - 1)).ppf ((1 + realOf q) / 2)
  have e : 1 / 2 * (c * Real.sqrt (varK 1 (finVals x)) / Real.sqrt (finVals x).length) * (UB - LB) =
      c * (1 / 2 * (Real.sqrt (varK 1 (finVals x)) / Real.sqrt (finVals x).length) * (UB - LB)) := by ring
  rw [e]
  have e2 : decide (0 ≤ c * (1 / 2 * (Real.sqrt (varK 1 (finVals x)) / Real.sqrt (finVals x).length) * (UB - LB))) =
      decide (0 ≤ 1 / 2 * (Real.sqrt (varK 1 (finVals x)) / Real.sqrt (finVals x).length) * (UB - LB)) := by
    rw [decide_eq_decide]
    exact mul_nonneg_iff_of_pos_left hc
  rw [e2]
  split_ifs
  · simp [Except.map, reFlt, pure_eq_ok]
  · rfl
  · rfl

theorem signInf_scale (v : ℝ) : Flt.signInf (c * v) = Flt.signInf v := by
  unfold Flt.signInf
  have h1 : 0 < c * v ↔ 0 < v := mul_pos_iff_of_pos_left hc
  have h2 : c * v < 0 ↔ v < 0 := by
    rw [← not_le, ← not_le, mul_nonneg_iff_of_pos_left hc]
  simp only [h1, h2]

theorem div_scale (v w : ℝ) : (Flt.fin (c * v)).div (.fin (c * w)) = (Flt.fin v).div (.fin w) := by
  simp only [Flt.div, mul_eq_zero, hc.ne', false_or]
  split_ifs
  · exact signInf_scale hc v
  · rw [mul_div_mul_left _ _ hc.ne']

theorem re_tTest (T : Nat → RefDist) (x : List (Flt ℝ)) : tTest T (x.map (reFlt c 0)) = tTest T x := by
  unfold tTest
  simp only [re_any_nan hc, re_uninformative hc, re_finVals hc, List.length_map, pyAssert_bind]
  by_cases h1 : (!(x.any fun v => v.isNaN)) = true
  swap
  · rw [if_neg h1, if_neg h1]
  rw [if_pos h1, if_pos h1]
  by_cases hu : uninformative x = true
  · rw [if_pos hu, if_pos hu]
  rw [if_neg hu, if_neg hu, re_varK _ (informative_ne hu), re_meanK (informative_ne hu), mul_div_assoc, sqrt_scale hc]
  simp only [sub_zero, add_zero, div_scale hc, mul_eq_zero, hc.ne', false_or]
  set p := (((T ((finVals x).length - 1)).sf (fabs ((Flt.fin (meanK (finVals x))).div
    (.fin (Real.sqrt (varK 1 (finVals x) / (finVals x).length)))))).mul (.fin 2)) with hp
  by_cases hn : p.isNaN = true
  · have hv : varK 1 (finVals x) ≤ 0 := by
      by_contra hv
      push Not at hv
      have hl : 0 < ((finVals x).length : ℝ) := by
        exact_mod_cast List.length_pos_iff.2 (informative_ne hu)
      have hs : Real.sqrt (varK 1 (finVals x) / (finVals x).length) ≠ 0 := (Real.sqrt_pos.2 (div_pos hv hl)).ne'
      rw [hp, Flt.div_fin hs] at hn
      simp [fabs, RefDist.sf] at hn
    have a1 : decide (varK 1 (finVals x) ≤ 1 / 10 ^ 100) = true := decide_eq_true (hv.trans (by positivity))
    have a2 : decide (c ^ 2 * varK 1 (finVals x) ≤ 1 / 10 ^ 100) = true :=
      decide_eq_true ((mul_nonpos_of_nonneg_of_nonpos (sq_nonneg c) hv).trans (by positivity))
    simp only [hn, if_true, a1, a2]
  · simp only [hn]
    rfl

theorem re_nonneg (a : Flt ℝ) : (Flt.fin 0).le (reFlt c 0 a) = (Flt.fin 0).le a := by
  have := re_le hc (d := 0) (.fin 0) a
  rwa [re_zero hc] at this

theorem re_mul_pos {w : ℝ} (a : Flt ℝ) : (Flt.fin w).mul (reFlt c 0 a) = reFlt c 0 ((Flt.fin w).mul a) := by
  cases a
  · simp only [reFlt, Flt.mul]
    congr 1
    ring
  · simp only [reFlt, Flt.mul, Flt.signInf]; split_ifs <;> rfl
  · simp only [reFlt, Flt.mul, Flt.signInf]; split_ifs <;> rfl
  · rfl

theorem re_div (a : Flt ℝ) {n : ℝ} (hn : 0 < n) : (reFlt c 0 a).div (.fin n) = reFlt c 0 (a.div (.fin n)) := by
  cases a <;> simp only [reFlt, Flt.div, hn.ne', if_false]
  · congr 1; ring
  all_goals (rw [if_neg (not_lt.2 hn.le)])

theorem re_bernsteinEB (x : List (Flt ℝ)) (lo hi q : Flt ℝ) :
    bernsteinEB (x.map (reFlt c d)) (reFlt c d lo) (reFlt c d hi) q = (bernsteinEB x lo hi q).map (reFlt c 0) := by
  unfold bernsteinEB
  have h0 := re_nonneg hc
  simp only [re_any_nan hc, re_uninformative hc, re_finVals hc, List.length_map, pyAssert_bind, re_sub hc, h0, re_within hc]
  by_cases h1 : (!(x.any fun v => v.isNaN)) = true
  swap
  · rw [if_neg h1, if_neg h1]; rfl
  rw [if_pos h1, if_pos h1]
  by_cases h2 : (Flt.fin 0).le (hi.sub lo) = true
  swap
  · rw [if_neg h2, if_neg h2]; rfl
  rw [if_pos h2, if_pos h2]
  by_cases h3 : within lo hi x = true
  swap
  · rw [if_neg h3, if_neg h3]; rfl
  rw [if_pos h3, if_pos h3]
  by_cases h4 : confOk q = true
  swap
  · rw [if_neg h4, if_neg h4]; rfl
  rw [if_pos h4, if_pos h4]
  by_cases hu : uninformative x = true
  · rw [if_pos hu, if_pos hu]; rfl
  have hl : 0 < ((finVals x).length : ℝ) := by
    exact_mod_cast List.length_pos_iff.2 (informative_ne hu)
  rw [if_neg hu, if_neg hu, re_varK _ (informative_ne hu), sqrt_scale hc, re_mul_pos hc, re_div hc _ hl]
  set A := Real.log (3 / (1 - realOf q))
  have e : ∀ w : Flt ℝ, (Flt.fin (c * Real.sqrt (varK 0 (finVals x)) * Real.sqrt (2 * A / (finVals x).length))).add (reFlt c 0 w) =
      reFlt c 0 ((Flt.fin (Real.sqrt (varK 0 (finVals x)) * Real.sqrt (2 * A / (finVals x).length))).add w) := by
    intro w
    have := re_add hc (d := 0) 0 (Flt.fin (Real.sqrt (varK 0 (finVals x)) * Real.sqrt (2 * A / (finVals x).length))) w
    rw [add_zero] at this
    rw [← this]
    simp [reFlt, mul_assoc]
  rw [e, h0]
  split_ifs <;> rfl

theorem re_bernsteinTest (x : List (Flt ℝ)) (lo hi : Flt ℝ) :
    bernsteinTest (x.map (reFlt c 0)) (reFlt c 0 lo) (reFlt c 0 hi) = bernsteinTest x lo hi := by
  unfold bernsteinTest
  have h0 := re_nonneg hc
  simp only [re_any_nan hc, re_uninformative hc, re_finVals hc, List.length_map, pyAssert_bind, re_sub hc, h0, re_within hc]
  by_cases hu : uninformative x = true
  · simp only [hu, if_true]
  cases hi.sub lo with
  | fin R =>
    have hq : quadRoots (3 * (c * R) / (finVals x).length) (c * Real.sqrt (varK 0 (finVals x)) * Real.sqrt (2 / (finVals x).length))
        (-|c * meanK (finVals x)|) = quadRoots (3 * R / (finVals x).length) (Real.sqrt (varK 0 (finVals x)) * Real.sqrt (2 / (finVals x).length))
        (-|meanK (finVals x)|) := by
      rw [abs_mul, abs_of_pos hc]
      set a := 3 * R / ((finVals x).length : ℝ) with ha
      set b := Real.sqrt (varK 0 (finVals x)) * Real.sqrt (2 / (finVals x).length)
      set m := |meanK (finVals x)|
      have e1 : 3 * (c * R) / ((finVals x).length : ℝ) = c * a := by rw [ha]; ring
      have e2 : c * Real.sqrt (varK 0 (finVals x)) * Real.sqrt (2 / (finVals x).length) = c * b := by ring
      rw [e1, e2]
      unfold quadRoots
      have e3 : (c * b) ^ 2 - 4 * (c * a) * -(c * m) = c ^ 2 * (b ^ 2 - 4 * a * -m) := by ring
      have e4 : c ^ 2 * (b ^ 2 - 4 * a * -m) < 0 ↔ b ^ 2 - 4 * a * -m < 0 := by
        rw [← not_le, ← not_le, mul_nonneg_iff_of_pos_left (pow_pos hc 2)]
      rw [e3, sqrt_scale hc]
      simp only [e4]
      have e5 : ∀ w, (-(c * b) - c * w) / (2 * (c * a)) = (-b - w) / (2 * a) := fun w => by
        rw [show -(c * b) - c * w = c * (-b - w) by ring, show 2 * (c * a) = c * (2 * a) by ring, mul_div_mul_left _ _ hc.ne']
      have e6 : ∀ w, (-(c * b) + c * w) / (2 * (c * a)) = (-b + w) / (2 * a) := fun w => by
        rw [show -(c * b) + c * w = c * (-b + w) by ring, show 2 * (c * a) = c * (2 * a) by ring, mul_div_mul_left _ _ hc.ne']
      rw [e5, e6]
    simp only [reFlt, add_zero]
    have hm : meanK ((finVals x).map fun v => c * v) = c * meanK (finVals x) := by
      have := re_meanK (c := c) (d := 0) (informative_ne hu)
      simpa using this
    have hvk : varK 0 ((finVals x).map fun v => c * v) = c ^ 2 * varK 0 (finVals x) := by
      have := re_varK (c := c) (d := 0) 0 (informative_ne hu)
      simpa using this
    rw [hm, hvk, sqrt_scale hc, hq]
    simp only [mul_eq_zero, hc.ne', false_or]
  | _ => rfl

/-! ## Bootstrap -/

theorem re_percentile (l : List (Flt ℝ)) (q : Flt ℝ) :
    percentile (l.map (reFlt c d)) q = (percentile l q).map fun p => (reFlt c d p.1, reFlt c d p.2) := by
  unfold percentile percentileLower percentileHigher
  rw [re_any_nan hc, ← List.map_insertionSort (r := (· ≤ ·)) (s := (· ≤ ·)) (reFlt c d) l (fun a _ b _ => (re_le_re hc a b).symm), List.length_map]
  simp only [List.getElem?_map, pyAssert_bind]
  by_cases h1 : (!(l.any fun v => v.isNaN)) = true
  swap
  · rw [if_neg h1, if_neg h1]; rfl
  rw [if_pos h1, if_pos h1]
  cases confidenceToPercentiles q with
  | error e => rfl
  | ok p =>
    simp only [ok_bind]
    cases (l.insertionSort (· ≤ ·))[⌊p.1 / 100 * ((l.length : ℝ) - 1)⌋.toNat]? with
    | none => rfl
    | some a =>
      simp only [Option.map_some, ok_bind]
      cases (l.insertionSort (· ≤ ·))[⌈p.2 / 100 * ((l.length : ℝ) - 1)⌉.toNat]? <;> rfl

theorem re_errorBar (l : List (Flt ℝ)) (o q : Flt ℝ) :
    errorBar (l.map (reFlt c d)) (reFlt c d o) q = (errorBar l o q).map (reFlt c 0) := by
  unfold errorBar
  rw [re_percentile hc]
  cases percentile l q with
  | error e => rfl
  | ok p =>
    have h0 : ∀ a : Flt ℝ, (reFlt c 0 a).lt (.fin 0) = a.lt (.fin 0) := fun a => by
      have := re_lt hc (d := 0) a (.fin 0)
      rwa [re_zero hc] at this
    simp only [Except.map, ok_bind, re_sub hc, re_fmax hc, h0, re_isFinite hc, re_isNaN hc, pyAssert_bind]
    split_ifs <;> rfl

theorem re_significance (l : List (Flt ℝ)) :
    significance (l.map (reFlt c 0)) (.scalar (.fin 0)) = significance l (.scalar (.fin 0)) := by
  have h : ∀ (l : List (Flt ℝ)) (n : Nat),
      List.zipWith Flt.le (l.map (reFlt c 0)) (List.replicate n (.fin 0)) = List.zipWith Flt.le l (List.replicate n (.fin 0)) ∧
      List.zipWith Flt.le (List.replicate n (.fin 0)) (l.map (reFlt c 0)) = List.zipWith Flt.le (List.replicate n (.fin 0)) l := by
    intro l
    induction l with
    | nil => intro n; cases n <;> simp
    | cons a l ih =>
      intro n
      cases n with
      | zero => simp
      | succ n =>
        have e1 : (reFlt c 0 a).le (.fin 0) = a.le (.fin 0) := by
          have := re_le hc (d := 0) a (.fin 0)
          rwa [re_zero hc] at this
        simp only [List.map_cons, List.replicate_succ, List.zipWith_cons_cons, (ih n).1, (ih n).2, re_nonneg hc, e1, and_self]
  unfold significance Ref.broadcast
  simp only [re_any_nan hc, List.length_map, (h l _).1, (h l _).2]

omit hc in
theorem meanK_affine (xs w : List ℝ) (hw : w.length = xs.length) (hne : xs ≠ []) (hs : d = 0 ∨ w.sum = xs.length) :
    meanK (List.zipWith (fun (a b : ℝ) => a * b) (xs.map fun v => c * v + d) w) = c * meanK (List.zipWith (fun (a b : ℝ) => a * b) xs w) + d := by
  have h1 : (xs.length : ℝ) ≠ 0 := by exact_mod_cast fun h0 => hne (List.length_eq_zero_iff.1 h0)
  have key : ∀ (xs w : List ℝ), w.length = xs.length → (List.zipWith (fun (a b : ℝ) => a * b) (xs.map fun v => c * v + d) w).sum =
      c * (List.zipWith (fun (a b : ℝ) => a * b) xs w).sum + d * w.sum := by
    intro xs
    induction xs with
    | nil => intro w h; rw [List.length_nil, List.length_eq_zero_iff] at h; subst h; simp
    | cons a l ih =>
      intro w h
      cases w with
      | nil => simp at h
      | cons b w =>
        simp only [List.map_cons, List.zipWith_cons_cons, List.sum_cons, ih w (by simpa using h)]
        ring
  unfold meanK
  rw [key xs w hw]
  simp only [List.length_zipWith, List.length_map, hw, min_self]
  rcases hs with rfl | hs
  · simp only [zero_mul, add_zero]
    ring
  · rw [hs]
    field_simp

theorem re_bootEBTest (x : List (Flt ℝ)) (q : Flt ℝ) (n : Nat) (counts : List (List Nat)) (a b : Bool)
    (hs : d = 0 ∨ ∀ row ∈ counts, row.sum = row.length) (hb : b = true → d = 0) :
    bootEBTest (x.map (reFlt c d)) q n counts a b false = (bootEBTest x q n counts a b false).map fun r => (reFlt c 0 r.1, r.2) := by
  unfold bootEBTest
  simp only [re_any_nan hc, re_uninformative hc, re_finVals hc, List.length_map, pyAssert_bind]
  by_cases h1 : (!(x.any fun v => v.isNaN)) = true
  swap
  · rw [if_neg h1, if_neg h1]; rfl
  rw [if_pos h1, if_pos h1]
  by_cases hu : uninformative x = true
  · rw [if_pos hu, if_pos hu]; rfl
  rw [if_neg hu, if_neg hu]
  have hne := informative_ne hu
  cases hw : Boot.bootWeights (K := ℝ) (finVals x).length n 0 counts with
  | error e => rfl
  | ok w =>
    have hrows : ∀ r ∈ w, r.length = (finVals x).length ∧ (d = 0 ∨ r.sum = ((finVals x).length : ℝ)) := by
      unfold Boot.bootWeights at hw
      simp only [pyAssert_bind] at hw
      split_ifs at hw with g1 g2 g3
      rw [Bool.and_eq_true, List.all_eq_true] at g3
      cases hw
      intro r hr
      have hl : r.length = (finVals x).length := by exact_mod_cast of_decide_eq_true (g3.2 r hr)
      refine ⟨hl, hs.imp_right fun hs => ?_⟩
      obtain ⟨row, hrow, rfl⟩ := List.mem_map.1 hr
      have e : (row.map fun (k : Nat) => max 0 (k : ℝ)) = row.map fun (k : Nat) => (k : ℝ) :=
        List.map_congr_left fun k _ => max_eq_right (Nat.cast_nonneg k)
      rw [e, ← Nat.cast_list_sum, hs row hrow]
      rw [List.length_map] at hl
      exact_mod_cast hl
    have hmu : (w.map fun (r : List ℝ) => Flt.fin (meanK (List.zipWith (fun (a b : ℝ) => a * b) ((finVals x).map fun v => c * v + d) r))) =
        (w.map fun (r : List ℝ) => Flt.fin (meanK (List.zipWith (fun (a b : ℝ) => a * b) (finVals x) r))).map (reFlt c d) := by
      rw [List.map_map]
      refine List.map_congr_left fun r hr => ?_
      rw [meanK_affine _ _ (hrows r hr).1 hne (hrows r hr).2]
      rfl
    simp only [ok_bind, hmu, re_meanK hne, Bool.false_eq_true, if_false]
    set B := w.map fun (r : List ℝ) => Flt.fin (meanK (List.zipWith (fun (a b : ℝ) => a * b) (finVals x) r))
    have hsig : (if b = true then significance (B.map (reFlt c d)) (.scalar (.fin 0)) else pure (.fin 1)) =
        (if b = true then significance B (.scalar (.fin 0)) else pure (.fin 1)) := by
      by_cases hbt : b = true
      · obtain rfl := hb hbt
        rw [re_significance hc]
      · simp [hbt]
    have hEB : (if a = true then errorBar (B.map (reFlt c d)) (.fin (c * meanK (finVals x) + d)) q else pure .pinf) =
        (if a = true then errorBar B (.fin (meanK (finVals x))) q else pure .pinf : Py (Flt ℝ)).map (reFlt c 0) := by
      split_ifs
      · exact re_errorBar hc B (.fin (meanK (finVals x))) q
      · rfl
    rw [hsig, hEB]
    generalize (if b = true then significance B (.scalar (.fin 0)) else pure (.fin 1)) = s1
    generalize (if a = true then errorBar B (.fin (meanK (finVals x))) q else pure .pinf : Py (Flt ℝ)) = s2
    cases s1 <;> cases s2 <;> rfl

/-! ## Summaries -/

omit hc in
theorem mean_ge {x : List (Flt ℝ)} (hne : x ≠ []) {lo : Flt ℝ} (h : ∀ v ∈ x, lo.le v = true) : lo ≤ Flt.mean x := by
  have hl : (0 : ℝ) < x.length := by exact_mod_cast List.length_pos_iff.2 hne
  cases lo with
  | ninf => simp
  | nan =>
    obtain ⟨v, hv⟩ := List.exists_mem_of_ne_nil x hne
    simpa [Flt.le] using h v hv
  | pinf =>
    have key : ∀ l : List (Flt ℝ), l ≠ [] → (∀ v ∈ l, Flt.pinf.le v = true) → Flt.sum l = .pinf := by
      intro l
      induction l with
      | nil => intro h; exact absurd rfl h
      | cons a l ih =>
        intro _ hl
        have ha := hl a (by simp)
        have : a = .pinf := by
          rw [Flt.le_iff] at ha
          cases a <;> simp_all
        subst this
        rw [flt_sum_cons]
        by_cases hn : l = []
        · subst hn; rfl
        · rw [ih hn fun v hv => hl v (by simp [hv])]; rfl
    unfold Flt.mean
    rw [key x hne h]
    simp [Flt.div, not_lt.2 hl.le]
  | fin r =>
    have key : ∀ l : List (Flt ℝ), (∀ v ∈ l, (Flt.fin r).le v = true) → (∃ s, Flt.sum l = .fin s ∧ l.length * r ≤ s) ∨ Flt.sum l = .pinf := by
      intro l
      induction l with
      | nil => intro _; exact .inl ⟨0, rfl, by simp⟩
      | cons a l ih =>
        intro hl
        have ha := hl a (by simp)
        rw [Flt.le_iff] at ha
        rw [flt_sum_cons]
        rcases ih (fun v hv => hl v (by simp [hv])) with ⟨s, e, hs⟩ | e
        · rw [e]
          cases a with
          | fin v =>
            refine .inl ⟨v + s, rfl, ?_⟩
            have : r ≤ v := by simpa using ha.2
            rw [List.length_cons]
            push_cast
            linarith
          | pinf => exact .inr rfl
          | ninf => simp at ha
          | nan => simp at ha
        · rw [e]
          cases a with
          | fin v => exact .inr rfl
          | pinf => exact .inr rfl
          | ninf => simp at ha
          | nan => simp at ha
    unfold Flt.mean
    rcases key x h with ⟨s, e, hs⟩ | e
    · rw [e, Flt.div_fin hl.ne', Flt.fin_le_fin, le_div_iff₀ hl]
      linarith
    · rw [e]
      simp [Flt.div, not_lt.2 hl.le]

omit hc in
theorem mean_clip {x : List (Flt ℝ)} {lo hi : Flt ℝ} (h : within lo hi x = true) : (Flt.mean x).clip lo hi = Flt.mean x := by
  by_cases hne : x = []
  · subst hne
    simp [Flt.mean, Flt.sum, Flt.div, Flt.signInf, Flt.clip, Flt.lt]
  unfold within at h
  rw [Bool.and_eq_true, List.all_eq_true, List.all_eq_true] at h
  have h1 := mean_ge hne h.1
  have h2 := mean_ge (x := x.map Flt.neg) (lo := hi.neg) (by simpa using hne) (fun v hv => by
    obtain ⟨w, hw, rfl⟩ := List.mem_map.1 hv
    rw [neg_le_flip]
    exact h.2 w hw)
  rw [flt_mean_neg] at h2
  unfold Flt.clip
  rw [if_neg, if_neg]
  · rw [Flt.lt_iff]
    rintro ⟨h3, h4⟩
    by_cases hh : hi = .nan
    · subst hh
      exact absurd h4 (not_lt.2 (Flt.le_nan _))
    · rw [Flt.neg_le_neg hh h3] at h2
      exact absurd h4 (not_lt.2 h2)
  · rw [Flt.lt_iff]
    rintro ⟨h3, h4⟩
    exact absurd h4 (not_lt.2 h1)

theorem re_clipChk {x : List (Flt ℝ)} {lo hi : Flt ℝ} (h : within lo hi x = true) :
    Util.clipChk (Flt.mean (x.map (reFlt c d))) (reFlt c d lo) (reFlt c d hi) = (Util.clipChk (Flt.mean x) lo hi).map (reFlt c d) := by
  unfold Util.clipChk
  rw [re_mean hc, re_clip hc, mean_clip h]
  by_cases hn : Flt.mean x = .nan
  · rw [hn]
    cases lo <;> cases hi <;> rfl
  · have e1 : (reFlt c d (Flt.mean x)).eq (reFlt c d (Flt.mean x)) = true := by
      rw [re_eq hc, Flt.eq_iff]; exact ⟨hn, rfl⟩
    have e2 : (Flt.mean x).eq (Flt.mean x) = true := by
      rw [Flt.eq_iff]; exact ⟨hn, rfl⟩
    simp only [e1, e2, Bool.true_or, pyAssert_bind, if_true]
    rfl

theorem re_clipEB (mu EB lo hi : Flt ℝ) :
    clipEB (reFlt c d mu) (reFlt c 0 EB) (reFlt c d lo) (reFlt c d hi) (.fin 0) = (clipEB mu EB lo hi (.fin 0)).map (reFlt c 0) := by
  unfold clipEB
  have h2 : ∀ a : Flt ℝ, (reFlt c 0 a).lt (.fin 0) = a.lt (.fin 0) := fun a => by
    have := re_lt hc (d := 0) a (.fin 0)
    rwa [re_zero hc] at this
  have h3 : ∀ a b : Flt ℝ, (reFlt c 0 a).clip (.fin 0) (reFlt c 0 b) = reFlt c 0 (a.clip (.fin 0) b) := fun a b => by
    have := re_clip hc (d := 0) a (.fin 0) b
    rwa [re_zero hc] at this
  have h4 : (Flt.fin (2 : ℝ)).mul (.fin 0) = .fin 0 := by simp
  simp only [re_sub hc, re_nonneg hc, re_lt hc, re_fmax hc, h2, h3, h4, pyAssert_bind]
  split_ifs <;> rfl

/-- **C146, one mean.**  `get_mean_and_EB` in other units: the mean is multiplied and shifted, the error bar multiplied. -/
theorem C146_mean_EB (T : Nat → RefDist) (x : List (Flt ℝ)) (q lo hi : Flt ℝ) (m : EBMethod) (counts : List (List Nat))
    (hs : m = .boot → d = 0 ∨ ∀ row ∈ counts, row.sum = row.length) :
    getMeanEB T (x.map (reFlt c d)) q (.fin 0) (reFlt c d lo) (reFlt c d hi) m counts =
      (getMeanEB T x q (.fin 0) lo hi m counts).map fun r => (reFlt c d r.1, reFlt c 0 r.2) := by
  unfold getMeanEB
  rw [re_within hc]
  by_cases hw : within lo hi x = true
  swap
  · simp only [hw, pyAssert_bind]; rfl
  simp only [hw, pyAssert_bind, if_true, re_clipChk hc hw]
  have key : ∀ e : Py (Flt ℝ), (do
      let EB ← e.map (reFlt c 0)
      let mu ← (Util.clipChk (Flt.mean x) lo hi).map (reFlt c d)
      let EB ← clipEB mu EB (reFlt c d lo) (reFlt c d hi) (.fin 0)
      return (mu, EB) : Py (Flt ℝ × Flt ℝ)) = (do
      let EB ← e
      let mu ← Util.clipChk (Flt.mean x) lo hi
      let EB ← clipEB mu EB lo hi (.fin 0)
      return (mu, EB) : Py (Flt ℝ × Flt ℝ)).map fun r => (reFlt c d r.1, reFlt c 0 r.2) := by
    rintro (e | EB)
    · rfl
    · cases Util.clipChk (Flt.mean x) lo hi with
      | error e => rfl
      | ok mu =>
        simp only [Except.map, ok_bind, re_clipEB hc]
        cases clipEB mu EB lo hi (.fin 0) <;> rfl
  cases m
  · simp only [re_tEB hc]; exact key _
  · simp only [re_bernsteinEB hc]; exact key _
  · have e : bootEB (x.map (reFlt c d)) q defaultNBoot counts = (bootEB x q defaultNBoot counts).map (reFlt c 0) := by
      unfold bootEB
      rw [re_bootEBTest hc _ _ _ _ _ _ (hs rfl) (by simp)]
      cases bootEBTest x q defaultNBoot counts true false false with
      | error e => rfl
      | ok r =>
        simp only [Except.map, ok_bind, re_nonneg hc, pyAssert_bind]
        split_ifs <;> rfl
    simp only [e]; exact key _
  · exact key (.error .assertion)

/-- **C146, tests.**  The p-value does not change with the unit. -/
theorem C146_test (T : Nat → RefDist) (x : List (Flt ℝ)) (lo hi : Flt ℝ) (m : EBMethod) (counts : List (List Nat)) :
    getTest T (x.map (reFlt c 0)) (reFlt c 0 lo) (reFlt c 0 hi) m counts = getTest T x lo hi m counts := by
  cases m
  · exact re_tTest hc T x
  · exact re_bernsteinTest hc x lo hi
  · simp only [getTest, bootTest]
    rw [re_bootEBTest hc _ _ _ _ _ _ (.inl rfl) (fun _ => rfl)]
    cases bootEBTest x defaultConfidence defaultNBoot counts false true false <;> rfl
  · rfl

/-- **C146, a mean with its test.** -/
theorem C146_mean_EB_test (T : Nat → RefDist) (x : List (Flt ℝ)) (q lo hi : Flt ℝ) (m : EBMethod) (counts : List (List Nat)) :
    getMeanEBTest T (x.map (reFlt c 0)) q (.fin 0) (reFlt c 0 lo) (reFlt c 0 hi) m counts =
      (getMeanEBTest T x q (.fin 0) lo hi m counts).map (reCell c 0) := by
  unfold getMeanEBTest
  rw [re_within hc]
  by_cases hw : within lo hi x = true
  swap
  · simp only [hw, pyAssert_bind]; rfl
  simp only [hw, pyAssert_bind, if_true, re_clipChk hc hw]
  have key : ∀ e : Py (Flt ℝ × Flt ℝ), (do
      let r ← e.map fun r => (reFlt c 0 r.1, r.2)
      let mu ← (Util.clipChk (Flt.mean x) lo hi).map (reFlt c 0)
      let EB ← clipEB mu r.1 (reFlt c 0 lo) (reFlt c 0 hi) (.fin 0)
      return (mu, EB, r.2) : Py (Flt ℝ × Flt ℝ × Flt ℝ)) = (do
      let r ← e
      let mu ← Util.clipChk (Flt.mean x) lo hi
      let EB ← clipEB mu r.1 lo hi (.fin 0)
      return (mu, EB, r.2) : Py (Flt ℝ × Flt ℝ × Flt ℝ)).map (reCell c 0) := by
    rintro (e | r)
    · rfl
    · cases Util.clipChk (Flt.mean x) lo hi with
      | error e => rfl
      | ok mu =>
        simp only [Except.map, ok_bind, re_clipEB hc]
        cases clipEB mu r.1 lo hi (.fin 0) <;> rfl
  cases m
  · simp only [re_tEB hc, re_tTest hc]
    rw [← key]
    congr 1
    cases tEB T x q <;> cases tTest T x <;> rfl
  · simp only [re_bernsteinEB hc, re_bernsteinTest hc]
    rw [← key]
    congr 1
    cases bernsteinEB x lo hi q <;> cases bernsteinTest x lo hi <;> rfl
  · simp only [re_bootEBTest hc _ _ _ _ _ _ (.inl rfl) (fun _ => rfl)]
    rw [← key]
    congr 1
    cases bootEBTest x q defaultNBoot counts true true false <;> rfl
  · exact key (.error .assertion)

/-! ## Tables -/

theorem re_deltas (x y : List (Flt ℝ)) : List.zipWith Flt.sub (x.map (reFlt c d)) (y.map (reFlt c d)) = (List.zipWith Flt.sub x y).map (reFlt c 0) := by
  rw [List.zipWith_map_left, List.zipWith_map_right, List.map_zipWith]
  congr 1
  funext a b
  exact re_sub hc a b

omit hc in
theorem re_column (c d : Str → ℝ) (tbl : LossTable) (metric method : Str) :
    (reTable c d tbl).column metric method = (tbl.column metric method).map fun l => l.map (reFlt (c metric) (d metric)) := by
  unfold LossTable.column reTable
  dsimp only
  rw [List.filter_map]
  have e : (tbl.cols.filter ((fun col => decide (col.1 = (metric, method))) ∘
      fun col : (Str × Str) × List (Flt ℝ) => (col.1, col.2.map (reFlt (c col.1.1) (d col.1.1))))) =
      tbl.cols.filter fun col => decide (col.1 = (metric, method)) := rfl
  rw [e]
  have hmem : ∀ col ∈ tbl.cols.filter (fun col => decide (col.1 = (metric, method))), col.1 = (metric, method) := fun col h =>
    of_decide_eq_true (List.mem_filter.1 h).2
  generalize tbl.cols.filter (fun col => decide (col.1 = (metric, method))) = F at hmem
  rcases F with _ | ⟨a, _ | ⟨b, F⟩⟩
  · rfl
  · simp only [List.map_cons, List.map_nil, Except.map]
    rw [hmem a (by simp)]
  · rfl

omit hc in
theorem re_limits (c d : Str → ℝ) (limits : List (Str × (Flt ℝ × Flt ℝ))) (metric : Str) :
    limitsGet (reLimits c d limits) metric =
      (reFlt (c metric) (d metric) (limitsGet limits metric).1, reFlt (c metric) (d metric) (limitsGet limits metric).2) := by
  unfold limitsGet reLimits
  rw [List.find?_map]
  have e : ((fun p : Str × (Flt ℝ × Flt ℝ) => decide (p.1 = metric)) ∘ fun p : Str × (Flt ℝ × Flt ℝ) =>
      (p.1, (reFlt (c p.1) (d p.1) p.2.1, reFlt (c p.1) (d p.1) p.2.2))) = fun p => decide (p.1 = metric) := rfl
  rw [e]
  cases h : limits.find? fun p => decide (p.1 = metric) with
  | none => rfl
  | some p =>
    have hp : p.1 = metric := by have := List.find?_some h; simpa using this
    simp only [Option.map_some, Option.getD_some]
    rw [hp]

theorem re_lossCell (T : Nat → RefDist) {tbl tbl' : LossTable} {metric method : Str}
    (hcol : tbl'.column metric method = (tbl.column metric method).map fun l => l.map (reFlt c d)) (lossRef : List (Flt ℝ)) (refMethod : Str)
    (pairwise : Bool) (q : Flt ℝ) (m : EBMethod) (lo hi : Flt ℝ) (draws : Draws)
    (hs : m = .boot → pairwise = false → ∀ row ∈ draws.eb, row.sum = row.length) :
    lossCell T (lossRef.map (reFlt c d)) tbl' refMethod pairwise q m (reFlt c d lo) (reFlt c d hi) metric draws method =
      (lossCell T lossRef tbl refMethod pairwise q m lo hi metric draws method).map (reCell c d) := by
  unfold lossCell
  rw [hcol]
  cases tbl.column metric method with
  | error e => rfl
  | ok loss =>
    simp only [Except.map, ok_bind, re_any_nan hc, re_within hc, re_mean hc, re_deltas hc, re_sub hc, re_neg hc, pyAssert_bind]
    by_cases h1 : (!(loss.any fun v => v.isNaN)) = true
    swap
    · simp only [if_neg h1]
    rw [if_pos h1, if_pos h1]
    by_cases h2 : within lo hi loss = true
    swap
    · simp only [if_neg h2]
    rw [if_pos h2, if_pos h2]
    cases pairwise with
    | true =>
      simp only [if_true]
      by_cases hself : decide (method = refMethod) = true
      · simp only [hself, if_true]; rfl
      · simp only [hself, C146_mean_EB_test hc]
        cases getMeanEBTest T (List.zipWith Flt.sub loss lossRef) q (.fin 0) (hi.sub lo).neg (hi.sub lo) m draws.eb <;> rfl
    | false =>
      simp only [Bool.false_eq_true, if_false, C146_mean_EB hc _ _ _ _ _ _ _ (fun h => .inr (hs h rfl)), C146_test hc]
      cases getMeanEB T loss q (.fin 0) lo hi m draws.eb with
      | error e => rfl
      | ok r =>
        simp only [Except.map, ok_bind, re_eq hc]
        by_cases h3 : r.1.eq (Flt.mean loss) = true
        · simp only [if_pos h3]
          generalize (if decide (method = refMethod) = true then pure Flt.nan
            else getTest T (List.zipWith Flt.sub loss lossRef) (hi.sub lo).neg (hi.sub lo) m draws.test : Py (Flt ℝ)) = t
          cases t <;> rfl
        · simp only [if_neg h3]

omit hc in
theorem mapM_map_out {α β : Type} {f g : α → Py β} {h : α → β → β} (l : List α) (hfg : ∀ a ∈ l, g a = (f a).map (h a)) :
    l.mapM g = (l.mapM f).map fun out => List.zipWith h l out := by
  induction l with
  | nil => rfl
  | cons a l ih =>
    rw [List.mapM_cons, List.mapM_cons, hfg a (by simp), ih fun b hb => hfg b (by simp [hb])]
    cases f a with
    | error e => rfl
    | ok b => cases l.mapM f <;> rfl

omit hc in
theorem zipWith_const {α β : Type} (h : β → β) (l : List α) (out : List β) (hl : out.length ≤ l.length) :
    List.zipWith (fun _ b => h b) l out = out.map h := by
  induction out generalizing l with
  | nil => cases l <;> rfl
  | cons b out ih =>
    cases l with
    | nil => simp at hl
    | cons a l => simp only [List.zipWith_cons_cons, List.map_cons, ih l (by simpa using hl)]

omit hc in
/-- **C146.**  `loss_summary_table` in other units, a positive factor and a shift for each metric, losses and limits alike: it fails in the same way or
not at all, the means are multiplied and shifted, the error bars multiplied, and the p-values are the same.  With the bootstrap and without `pairwise_CI`
the weights of each replicate are assumed to add up to the number of data points, as multinomial ones do. -/
theorem C146_table (T : Nat → RefDist) {c d : Str → ℝ} (hc : ∀ metric, 0 < c metric) (tbl : LossTable) (refMethod : Str) (pairwise : Bool) (q : Flt ℝ)
    (m : EBMethod) (limits : List (Str × (Flt ℝ × Flt ℝ))) (draws : Str → Str → Draws)
    (hs : m = .boot → pairwise = false → ∀ metric method, ∀ row ∈ (draws metric method).eb, row.sum = row.length) :
    lossSummaryTable T (reTable c d tbl) refMethod pairwise q m (reLimits c d limits) draws =
      (lossSummaryTable T tbl refMethod pairwise q m limits draws).map fun out =>
        List.zipWith (fun metric row => row.map (reCell (c metric) (d metric))) tbl.metrics out := by
  unfold lossSummaryTable
  simp only [pyAssert_bind, re_limits, re_column, show (reTable c d tbl).methods = tbl.methods from rfl,
    show (reTable c d tbl).nrows = tbl.nrows from rfl, show (reTable c d tbl).metrics = tbl.metrics from rfl]
  split_ifs
  · refine mapM_map_out _ fun metric _ => ?_
    rw [re_le (hc metric)]
    split_ifs
    · cases tbl.column metric refMethod with
      | error e => rfl
      | ok lossRef =>
        simp only [Except.map, ok_bind, re_any_nan (hc metric), re_within (hc metric)]
        split_ifs
        · have key := mapM_map_out (f := fun method => lossCell T lossRef tbl refMethod pairwise q m (limitsGet limits metric).1 (limitsGet limits metric).2
              metric (draws metric method) method) (g := fun method => lossCell T (lossRef.map (reFlt (c metric) (d metric))) (reTable c d tbl) refMethod
              pairwise q m (reFlt (c metric) (d metric) (limitsGet limits metric).1) (reFlt (c metric) (d metric) (limitsGet limits metric).2)
              metric (draws metric method) method) (h := fun _ => reCell (c metric) (d metric)) tbl.methods
            (fun method _ => re_lossCell (hc metric) T (re_column c d tbl metric method) _ _ _ _ _ _ _ _ (fun h1 h2 => hs h1 h2 metric method))
          rw [key]
          cases hM : tbl.methods.mapM (fun method => lossCell T lossRef tbl refMethod pairwise q m (limitsGet limits metric).1 (limitsGet limits metric).2
              metric (draws metric method) method) with
          | error e => rfl
          | ok out =>
            have hlen := ((mapM_ok_iff _ _ _).1 hM).length_eq
            simp only [Except.map]
            rw [zipWith_const _ _ _ hlen.ge]
        · rfl
        · rfl
    · rfl
  · rfl
  · rfl

omit hc in
/-- The example table in thousandths, with a shift: means 500 and 750, each plus 7, and the p-value as before. -/
example (pw : Bool) : ∃ x y : Flt ℝ × Flt ℝ × Flt ℝ,
    lossSummaryTable studentT exTable "A".toList pw (.fin (19 / 20)) .t [("L".toList, (Flt.fin 0, Flt.fin 2))] (fun _ _ => ⟨[], []⟩) = .ok [[x, y]] ∧
    lossSummaryTable studentT
      ⟨["L".toList], ["A".toList, "B".toList], 2,
        [(("L".toList, "A".toList), finVec [7, 1007]), (("L".toList, "B".toList), finVec [1007, 507])]⟩
      "A".toList pw (.fin (19 / 20)) .t [("L".toList, (Flt.fin 7, Flt.fin 2007))] (fun _ _ => ⟨[], []⟩) =
        .ok [[(.fin 507, reFlt 1000 0 x.2.1, .nan), (.fin 757, reFlt 1000 0 y.2.1, y.2.2)]] := by
  obtain ⟨out, hout⟩ := exTable_success pw
  have key := C146_table studentT (c := fun _ => 1000) (d := fun _ => 7) (fun _ => by norm_num) exTable "A".toList pw (.fin (19 / 20)) .t
    [("L".toList, (Flt.fin 0, Flt.fin 2))] (fun _ _ => ⟨[], []⟩) (by intro h; cases h)
  have h := C51_cells hout
  simp only [exTable] at h
  cases h with
  | cons h1 h2 =>
    cases h2
    cases h1 with
    | cons ha h3 =>
      cases h3 with
      | cons hb h4 =>
        cases h4
        rename_i x y
        refine ⟨x, y, hout, ?_⟩
        have e1 : x.1 = .fin (1 / 2) := by rw [C51_finite_mean ha (by simp) exTable_A]; norm_num [avg]
        have e2 : y.1 = .fin (3 / 4) := by rw [C51_finite_mean hb (by simp) exTable_B]; norm_num [avg]
        have e3 : x.2.2 = .nan := (C51_p_missing ha).1.2 rfl
        rw [hout] at key
        have et : reTable (fun _ => 1000) (fun _ => 7) exTable = ⟨["L".toList], ["A".toList, "B".toList], 2,
            [(("L".toList, "A".toList), finVec [7, 1007]), (("L".toList, "B".toList), finVec [1007, 507])]⟩ := by
          norm_num [reTable, exTable, finVec, reFlt]
        have el : reLimits (fun _ => 1000) (fun _ => 7) [("L".toList, (Flt.fin (0 : ℝ), Flt.fin 2))] =
            [("L".toList, (Flt.fin 7, Flt.fin 2007))] := by
          norm_num [reLimits, reFlt]
        rw [et, el] at key
        rw [key]
        simp only [Except.map, exTable, List.zipWith_cons_cons, List.zipWith_nil_left, List.map_cons, List.map_nil, reCell, e1, e2, e3]
        norm_num [reFlt]

end
end Mlp.Props
