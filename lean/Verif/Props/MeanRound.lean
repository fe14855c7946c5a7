import Verif.Spec.FloatLib
import Verif.Props.BootRound
import Verif.Props.CurvesRound
import Verif.Props.LossTable

/-!
# Means in floating point arithmetic

Accuracy of `np.mean`, and what follows for `clip_chk`.
-/

set_option linter.unusedSectionVars false

namespace Mlp.Props
open Mlp.Paper Mlp.PaperR Mlp.PerfR Mlp.Spec Mlp.Lemmas Mlp.Round

section
variable {K : Type} [Field K] [LinearOrder K] [IsStrictOrderedRing K] {rnd : K → K} {sumR : List K → K}

theorem abs_sum_le_list (l : List K) : |l.sum| ≤ (l.map fun v => |v|).sum := by
  induction l with
  | nil => simp
  | cons a l ih => simpa using (abs_add_le a l.sum).trans (by linarith)

/-- Adding along a tree numbers of any sign. -/
theorem tree_error_on {u : K} (hu : 0 ≤ u) {G : K → Prop} (hG : ∀ x, G (rnd x))
    (he : ∀ x y, G x → G y → |rnd (x + y) - (x + y)| ≤ u * |x + y|) (t : SumTree K) (ht : ∀ v ∈ t.leaves, G v) :
    |t.eval rnd - t.leaves.sum| ≤ ((1 + u) ^ (t.leaves.length - 1) - 1) * (t.leaves.map fun v => |v|).sum ∧
      1 ≤ t.leaves.length := by
  have hev : ∀ t : SumTree K, (∀ v ∈ t.leaves, G v) → G (t.eval rnd) := by
    intro t h
    cases t with
    | leaf v => exact h v (by simp [SumTree.leaves])
    | node a b => exact hG _
  induction t with
  | leaf v => simp [SumTree.eval, SumTree.leaves]
  | node a b iha ihb =>
    have ha : ∀ v ∈ a.leaves, G v := fun v hv => ht v (List.mem_append_left _ hv)
    have hb : ∀ v ∈ b.leaves, G v := fun v hv => ht v (List.mem_append_right _ hv)
    obtain ⟨i1, l1⟩ := iha ha
    obtain ⟨i2, l2⟩ := ihb hb
    have hab : ∀ l : List K, 0 ≤ (l.map fun v => |v|).sum := fun l =>
      List.sum_nonneg fun v hv => by obtain ⟨w, -, rfl⟩ := List.mem_map.1 hv; exact abs_nonneg w
    have hle : ∀ l : List K, |l.sum| ≤ (l.map fun v => |v|).sum := abs_sum_le_list
    have hSa := hab a.leaves
    have hSb := hab b.leaves
    have hA := hle a.leaves
    have hB := hle b.leaves
    have hr := he (a.eval rnd) (b.eval rnd) (hev a ha) (hev b hb)
    simp only [SumTree.eval, SumTree.leaves, List.sum_append, List.length_append, List.map_append]
    refine ⟨?_, by omega⟩
    obtain ⟨m, hm⟩ : ∃ m, a.leaves.length + b.leaves.length - 1 = m + 1 := ⟨a.leaves.length + b.leaves.length - 2, by omega⟩
    have p1 : (1 + u) ^ (a.leaves.length - 1) ≤ (1 + u) ^ m := pow_le_pow_right₀ (by linarith) (by omega)
    have p2 : (1 + u) ^ (b.leaves.length - 1) ≤ (1 + u) ^ m := pow_le_pow_right₀ (by linarith) (by omega)
    rw [hm, pow_succ]
    have hq : 1 ≤ (1 + u) ^ m := one_le_pow₀ (by linarith)
    generalize (1 + u) ^ m = q at *
    generalize a.leaves.sum = A at *
    generalize b.leaves.sum = B at *
    generalize (a.leaves.map fun v => |v|).sum = A' at *
    generalize (b.leaves.map fun v => |v|).sum = B' at *
    generalize a.eval rnd = x at *
    generalize b.eval rnd = y at *
    have j1 : |x - A| ≤ (q - 1) * A' := i1.trans (mul_le_mul_of_nonneg_right (by linarith) hSa)
    have j2 : |y - B| ≤ (q - 1) * B' := i2.trans (mul_le_mul_of_nonneg_right (by linarith) hSb)
    have j3 : |x + y - (A + B)| ≤ (q - 1) * (A' + B') := by
      have : x + y - (A + B) = (x - A) + (y - B) := by ring
      rw [this]
      exact (abs_add_le _ _).trans (by linarith)
    have j4 : |x + y| ≤ q * (A' + B') := by
      have : x + y = (x + y - (A + B)) + (A + B) := by ring
      rw [this]
      refine (abs_add_le _ _).trans ?_
      have := abs_add_le A B
      linarith
    have j5 : |rnd (x + y) - (x + y)| ≤ u * (q * (A' + B')) := hr.trans (mul_le_mul_of_nonneg_left j4 hu)
    have : rnd (x + y) - (A + B) = (rnd (x + y) - (x + y)) + (x + y - (A + B)) := by ring
    rw [this]
    refine (abs_add_le _ _).trans ((add_le_add j5 j3).trans (le_of_eq ?_))
    ring

/-- `np.sum` of numbers of any sign. -/
theorem sum_error_on {u : K} (hu : 0 ≤ u) {G : K → Prop} (hG : ∀ x, G (rnd x))
    (he : ∀ x y, G x → G y → |rnd (x + y) - (x + y)| ≤ u * |x + y|) (h : AddsAlongTrees rnd sumR) {l : List K}
    (hne : l ≠ []) (hl : ∀ v ∈ l, G v) :
    |sumR l - l.sum| ≤ ((1 + u) ^ (l.length - 1) - 1) * (l.map fun v => |v|).sum := by
  obtain ⟨t, hp, e⟩ := h.2 l hne
  have := (tree_error_on hu hG he t fun v hv => hl v (hp.mem_iff.1 hv)).1
  rw [e, ← hp.sum_eq, ← hp.length_eq, ← (hp.map fun v => |v|).sum_eq]
  exact this

theorem sum_error_signed {u : K} (hu : 0 ≤ u) (he : RelError u rnd) (h : AddsAlongTrees rnd sumR) {l : List K}
    (hne : l ≠ []) :
    |sumR l - l.sum| ≤ ((1 + u) ^ (l.length - 1) - 1) * (l.map fun v => |v|).sum :=
  sum_error_on hu (G := fun _ => True) (fun _ => trivial) (fun _ _ _ _ => he _) h hne fun _ _ => trivial

theorem tree_nonneg (hr : MonoRounding rnd) (t : SumTree K) (h : ∀ v ∈ t.leaves, 0 ≤ v) : 0 ≤ t.eval rnd := by
  induction t with
  | leaf v => exact h v (by simp [SumTree.leaves])
  | node a b iha ihb =>
    exact hr.nonneg (add_nonneg (iha fun v hv => h v (List.mem_append_left _ hv))
      (ihb fun v hv => h v (List.mem_append_right _ hv)))

theorem sum_nonneg_of_trees (hr : MonoRounding rnd) (h : AddsAlongTrees rnd sumR) {l : List K} (hl : ∀ v ∈ l, 0 ≤ v) :
    0 ≤ sumR l := by
  by_cases hne : l = []
  · rw [hne, h.1]
  · obtain ⟨t, hp, e⟩ := h.2 l hne
    rw [e]
    exact tree_nonneg hr t fun v hv => hl v (hp.mem_iff.1 hv)

/-- Numbers of at most `M`, where all multiples of `M` by up to `n` are floats, have a sum of at most `n M`. -/
theorem tree_le (hr : MonoRounding rnd) {M : K} (t : SumTree K)
    (hM : ∀ k : Nat, k ≤ t.leaves.length → rnd (k * M) = k * M) (h : ∀ v ∈ t.leaves, v ≤ M) :
    t.eval rnd ≤ t.leaves.length * M := by
  induction t with
  | leaf v => simpa [SumTree.leaves, SumTree.eval] using h
  | node a b iha ihb =>
    simp only [SumTree.leaves, SumTree.eval, List.length_append] at hM ⊢
    refine hr.le_of (hM _ le_rfl) ?_
    have h1 := iha (fun k hk => hM k (by omega)) fun v hv => h v (List.mem_append_left _ hv)
    have h2 := ihb (fun k hk => hM k (by omega)) fun v hv => h v (List.mem_append_right _ hv)
    push_cast
    linarith

theorem tree_ge (hr : MonoRounding rnd) {M : K} (t : SumTree K)
    (hM : ∀ k : Nat, k ≤ t.leaves.length → rnd (k * M) = k * M) (h : ∀ v ∈ t.leaves, M ≤ v) :
    t.leaves.length * M ≤ t.eval rnd := by
  induction t with
  | leaf v => simpa [SumTree.leaves, SumTree.eval] using h
  | node a b iha ihb =>
    simp only [SumTree.leaves, SumTree.eval, List.length_append] at hM ⊢
    refine hr.ge_of (hM _ le_rfl) ?_
    have h1 := iha (fun k hk => hM k (by omega)) fun v hv => h v (List.mem_append_left _ hv)
    have h2 := ihb (fun k hk => hM k (by omega)) fun v hv => h v (List.mem_append_right _ hv)
    push_cast
    linarith

/-- The error of a quotient of a sum by a count, rounded. -/
theorem quot_error {u t q s S A n : K} (hu : 0 ≤ u) (hn : 0 < n) (hA : |S| ≤ A) (hs : |s - S| ≤ (q - 1) * A)
    (hd : |rnd (s / n) - s / n| ≤ u * |s / n| + t) : |rnd (s / n) - S / n| ≤ (q * (1 + u) - 1) * (A / n) + t := by
  have h1 : |s / n - S / n| ≤ (q - 1) * (A / n) := by
    rw [← sub_div, abs_div, abs_of_pos hn, ← mul_div_assoc]
    exact div_le_div_of_nonneg_right hs hn.le
  have h2 : |s / n| ≤ q * (A / n) := by
    have e : s / n = (s / n - S / n) + S / n := by ring
    rw [e]
    refine (abs_add_le _ _).trans ?_
    have : |S / n| ≤ A / n := by
      rw [abs_div, abs_of_pos hn]
      exact div_le_div_of_nonneg_right hA hn.le
    linarith
  have e : rnd (s / n) - S / n = (rnd (s / n) - s / n) + (s / n - S / n) := by ring
  rw [e]
  refine (abs_add_le _ _).trans ?_
  have := mul_le_mul_of_nonneg_left h2 hu
  have e2 : (q * (1 + u) - 1) * (A / n) = u * (q * (A / n)) + (q - 1) * (A / n) := by ring
  rw [e2]
  linarith

end

variable {L : Lib ℝ}

/-- The average size of the numbers. -/
noncomputable def avgAbs (xs : List ℝ) : ℝ := (xs.map fun v => |v|).sum / (xs.length : ℝ)

theorem avgAbs_nonneg (xs : List ℝ) : 0 ≤ avgAbs xs :=
  div_nonneg (List.sum_nonneg fun v hv => by obtain ⟨w, -, rfl⟩ := List.mem_map.1 hv; exact abs_nonneg w)
    (Nat.cast_nonneg _)

theorem gradual_of_relError {rnd : ℝ → ℝ} (hr : FloatRounding rnd) (hd : ∀ x, rnd (2 * x) = 2 * rnd x) {u : ℝ} (hu : 0 ≤ u)
    (he : RelError u rnd) : GradualRounding u 0 (fun _ => True) rnd where
  toMonoRounding := hr.toMonoRounding
  unit_nonneg := hu
  tiny_nonneg := le_rfl
  tiny_le := by positivity
  error x := by rw [add_zero]; exact he x
  add_error x y _ _ := he _
  sub_small x y _ _ h := by
    rw [mul_zero] at h
    rw [abs_eq_zero.1 (le_antisymm h (abs_nonneg _)), hr.zero]
  double x _ := hd x
  double_float x h := by rw [hd, h]
  float _ := trivial

theorem safeLimits_trivial {lower upper : Flt ℝ} (hv : ValidLimits lower upper) (n : Nat) :
    SafeLimits 0 (fun _ => True) n lower upper := by
  refine ⟨fun _ _ => trivial, fun _ _ => trivial, ?_⟩
  rintro l h rfl rfl
  have := hv.2.2.1
  rw [Flt.fin_le_fin] at this
  rcases this.lt_or_eq with h | h
  · exact .inr (by linarith)
  · exact .inl h

section
variable {u tiny : ℝ} {G : ℝ → Prop} (hg : GradualRounding u tiny G L.rnd)
include hg

theorem gradual_pos (hu1 : u ≤ 1 / 1000000) {x : ℝ} (h : 2 * tiny < x) : 0 < L.rnd x := by
  have h0 := hg.tiny_nonneg
  have := (abs_le.1 (hg.error x)).1
  rw [abs_of_pos (by linarith)] at this
  nlinarith

/-- Bounds for the rounded value of a number that is not negative. -/
theorem gradual_bounds {x : ℝ} (h : 0 ≤ x) : (1 - u) * x - tiny ≤ L.rnd x ∧ L.rnd x ≤ (1 + u) * x + tiny := by
  have := abs_le.1 (hg.error x)
  rw [abs_of_nonneg h] at this
  constructor <;> linarith [this.1, this.2]

theorem tiny_small (hu1 : u ≤ 1 / 1000000) : tiny ≤ 1 / 10 ^ 107 := by
  refine hg.tiny_le.trans ?_
  rw [div_le_div_iff₀ (by positivity) (by positivity)]
  have : u * 10 ^ 107 ≤ 1 / 1000000 * 10 ^ 107 := mul_le_mul_of_nonneg_right hu1 (by positivity)
  refine this.trans (by norm_num)

theorem meanR_error_on (hs : AddsAlongTrees L.rnd L.sum) {xs : List ℝ}
    (hne : xs ≠ []) (hG : ∀ x ∈ xs, G x) : |meanR L xs - avg xs| ≤ ((1 + u) ^ xs.length - 1) * avgAbs xs + tiny := by
  have hl : 0 < xs.length := List.length_pos_iff.2 hne
  have h := quot_error (rnd := L.rnd) (q := (1 + u) ^ (xs.length - 1)) hg.unit_nonneg
    (show (0 : ℝ) < xs.length by exact_mod_cast hl) (abs_sum_le_list _)
    (sum_error_on hg.unit_nonneg hg.float hg.add_error hs hne hG) (hg.error _)
  rw [← pow_succ, Nat.sub_add_cancel hl] at h
  exact h

end

theorem meanR_error (hs : AddsAlongTrees L.rnd L.sum) {u : ℝ} (hu : 0 ≤ u) (he : RelError u L.rnd) {xs : List ℝ}
    (hne : xs ≠ []) : |meanR L xs - avg xs| ≤ ((1 + u) ^ xs.length - 1) * avgAbs xs := by
  have hl : 0 < xs.length := List.length_pos_iff.2 hne
  have h := quot_error (rnd := L.rnd) (t := 0) (q := (1 + u) ^ (xs.length - 1)) hu
    (show (0 : ℝ) < xs.length by exact_mod_cast hl) (abs_sum_le_list _) (sum_error_signed hu he hs hne)
    (by rw [add_zero]; exact he _)
  rw [add_zero] at h
  rw [← pow_succ, Nat.sub_add_cancel hl] at h
  exact h

theorem sum_map_le {f : ℝ → ℝ} {xs : List ℝ} {B : ℝ} (h : ∀ x ∈ xs, f x ≤ B) : (xs.map f).sum ≤ xs.length * B := by
  induction xs with
  | nil => simp
  | cons a l ih =>
    have h1 := h a List.mem_cons_self
    have h2 := ih fun x hx => h x (List.mem_cons_of_mem _ hx)
    simp only [List.map_cons, List.sum_cons, List.length_cons]
    push_cast
    linarith

theorem avg_le_of {f : ℝ → ℝ} {xs : List ℝ} (hne : xs ≠ []) {B : ℝ} (h : ∀ x ∈ xs, f x ≤ B) :
    (xs.map f).sum / (xs.length : ℝ) ≤ B := by
  have hl : (0 : ℝ) < xs.length := by exact_mod_cast List.length_pos_iff.2 hne
  rw [div_le_iff₀ hl, mul_comm]
  exact sum_map_le h

theorem avg_add_abs (xs : List ℝ) (d : ℝ) :
    avg xs + d * avgAbs xs = (xs.map fun x => x + d * |x|).sum / (xs.length : ℝ) := by
  unfold avg avgAbs
  rw [← mul_div_assoc, ← add_div, ← List.sum_map_mul_left]
  congr 1
  induction xs with
  | nil => simp
  | cons a l ih =>
    simp only [List.map_cons, List.sum_cons] at ih ⊢
    linarith

theorem add_abs_mono {d x h : ℝ} (hd0 : 0 ≤ d) (hd : d ≤ 1) (hx : x ≤ h) : x + d * |x| ≤ h + d * |h| := by
  have : |x| - |h| ≤ h - x := by
    have := abs_sub_abs_le_abs_sub x h
    rw [abs_sub_comm, abs_of_nonneg (by linarith : 0 ≤ h - x)] at this
    exact this
  nlinarith

theorem sub_abs_mono {d x h : ℝ} (hd0 : 0 ≤ d) (hd : d ≤ 1) (hx : h ≤ x) : h - d * |h| ≤ x - d * |x| := by
  have := add_abs_mono hd0 hd (neg_le_neg hx)
  rw [abs_neg, abs_neg] at this
  linarith

section
variable {u tiny : ℝ} {G : ℝ → Prop} (hg : GradualRounding u tiny G L.rnd)
include hg

/-- The computed mean exceeds a bound of the numbers by a small multiple of that bound at most. -/
theorem meanR_le (hs : AddsAlongTrees L.rnd L.sum) {xs : List ℝ}
    (hne : xs ≠ []) (hG : ∀ x ∈ xs, G x) (h1 : (1 + u) ^ xs.length ≤ 2) {h : ℝ} (hx : ∀ x ∈ xs, x ≤ h) :
    meanR L xs ≤ h + ((1 + u) ^ xs.length - 1) * |h| + tiny := by
  have hu := hg.unit_nonneg
  have hp : 1 ≤ (1 + u) ^ xs.length := one_le_pow₀ (by linarith)
  have := (abs_le.1 (meanR_error_on hg hs hne hG)).2
  have h2 : avg xs + ((1 + u) ^ xs.length - 1) * avgAbs xs ≤ h + ((1 + u) ^ xs.length - 1) * |h| := by
    rw [avg_add_abs]
    exact avg_le_of hne fun x h' => add_abs_mono (by linarith) (by linarith) (hx x h')
  linarith

/-- The same for a lower bound. -/
theorem meanR_ge (hs : AddsAlongTrees L.rnd L.sum) {xs : List ℝ}
    (hne : xs ≠ []) (hG : ∀ x ∈ xs, G x) (h1 : (1 + u) ^ xs.length ≤ 2) {h : ℝ} (hx : ∀ x ∈ xs, h ≤ x) :
    h - ((1 + u) ^ xs.length - 1) * |h| - tiny ≤ meanR L xs := by
  have hu := hg.unit_nonneg
  have hp : 1 ≤ (1 + u) ^ xs.length := one_le_pow₀ (by linarith)
  have := (abs_le.1 (meanR_error_on hg hs hne hG)).1
  have h2 : -(avg xs - ((1 + u) ^ xs.length - 1) * avgAbs xs) ≤ -(h - ((1 + u) ^ xs.length - 1) * |h|) := by
    have e : -(avg xs - ((1 + u) ^ xs.length - 1) * avgAbs xs) =
        (xs.map fun x => -(x - ((1 + u) ^ xs.length - 1) * |x|)).sum / (xs.length : ℝ) := by
      rw [show -(avg xs - ((1 + u) ^ xs.length - 1) * avgAbs xs) =
        -(avg xs + -((1 + u) ^ xs.length - 1) * avgAbs xs) by ring, avg_add_abs, ← neg_div]
      congr 1
      generalize (1 + u) ^ xs.length - 1 = d
      clear hne h1 hx hp this hG
      induction xs with
      | nil => simp
      | cons a l ih =>
        simp only [List.map_cons, List.sum_cons] at ih ⊢
        linarith
    rw [e]
    exact avg_le_of hne fun x h' => neg_le_neg (sub_abs_mono (by linarith) (by linarith) (hx x h'))
  linarith

/-- Numbers that agree to within 5e-6 are close for `np.isclose`. -/
theorem allcloseR_near (hu1 : u ≤ 1 / 1000000)
    {a b : ℝ} (h : |a - b| ≤ 5 / 1000000 * |b| + tiny) : allcloseR L.rnd a b = true := by
  unfold allcloseR
  rw [decide_eq_true_eq]
  have hu := hg.unit_nonneg
  have ht0 := hg.tiny_nonneg
  have ht : tiny ≤ 1 / 10 ^ 10 := (tiny_small hg hu1).trans (by norm_num)
  have hb := abs_nonneg b
  have h1 : |L.rnd (a - b)| ≤ (1 + u) * |a - b| + tiny := by
    have := hg.error (a - b)
    have e : L.rnd (a - b) = (L.rnd (a - b) - (a - b)) + (a - b) := by ring
    rw [e]
    refine (abs_add_le _ _).trans ?_
    linarith
  have c1 := (gradual_bounds hg (show (0 : ℝ) ≤ 1 / 100000 by norm_num)).1
  have c0 := (gradual_bounds hg (show (0 : ℝ) ≤ 1 / 100000000 by norm_num)).1
  have c0' : 0 ≤ L.rnd (1 / 100000000) := hg.nonneg (by norm_num)
  have c1' : 0 ≤ L.rnd (1 / 100000) := hg.nonneg (by norm_num)
  have c2 := (gradual_bounds hg (mul_nonneg c1' hb)).1
  have c2' : 0 ≤ L.rnd (L.rnd (1 / 100000) * |b|) := hg.nonneg (mul_nonneg c1' hb)
  have c3 := (gradual_bounds hg (add_nonneg c0' c2')).1
  generalize L.rnd (L.rnd (1 / 100000000) + L.rnd (L.rnd (1 / 100000) * |b|)) = X at *
  generalize L.rnd (L.rnd (1 / 100000) * |b|) = Y at *
  generalize L.rnd (1 / 100000) = Z at *
  generalize L.rnd (1 / 100000000) = W at *
  have hW : 9 / 1000000000 ≤ W := by norm_num at ht; linarith
  have hZ : 9 / 1000000 ≤ Z := by norm_num at ht; linarith
  have hzb : 9 / 1000000 * |b| ≤ Z * |b| := mul_le_mul_of_nonneg_right hZ hb
  have hY : 8 / 1000000 * |b| - tiny ≤ Y := by
    have : (999999 / 1000000) * (Z * |b|) ≤ (1 - u) * (Z * |b|) :=
      mul_le_mul_of_nonneg_right (by linarith) (mul_nonneg c1' hb)
    linarith
  have hX : 7 / 1000000 * |b| + 8 / 1000000000 - 2 * tiny ≤ X := by
    have : (999999 / 1000000) * (W + Y) ≤ (1 - u) * (W + Y) := mul_le_mul_of_nonneg_right (by linarith) (by linarith)
    linarith
  have : (1 + u) * |a - b| ≤ 6 / 1000000 * |b| + 2 * tiny := by nlinarith [abs_nonneg (a - b)]
  norm_num at ht
  linarith

end

theorem meanFR_finVec {xs : List ℝ} (hne : xs ≠ []) : meanFR L (finVec xs) = .fin (meanR L xs) := by
  have hl : (xs.length : ℝ) ≠ 0 := by
    have : 0 < xs.length := List.length_pos_iff.2 hne
    exact_mod_cast this.ne'
  unfold meanFR
  have hf : ((finVec xs).all fun v => v.isFinite) = true := (Flt.all_finite_iff _).2 ⟨xs, rfl⟩
  rw [if_pos hf, finVals_finVec, show (finVec xs).length = xs.length by simp [finVec],
    Flt.div_fin hl]
  rfl

theorem small_pow {u : ℝ} (hu : 0 ≤ u) {n : Nat} (hn : n * u ≤ 1 / 1000000) :
    (1 + u) ^ n - 1 ≤ 2 / 1000000 ∧ 0 ≤ (1 + u) ^ n - 1 := by
  have h1 := pow_one_add_le hu (n := n) (by linarith)
  have h2 : 1 ≤ (1 + u) ^ n := one_le_pow₀ (by linarith)
  constructor <;> linarith

/-- Clipping the computed mean to the limits never fails, and moves it only by a rounding error. -/
theorem clipChkR_mean {u tiny : ℝ} {G : ℝ → Prop} (hg : GradualRounding u tiny G L.rnd)
    (hs : AddsAlongTrees L.rnd L.sum) {xs : List ℝ}
    (hne : xs ≠ []) (hG : ∀ x ∈ xs, G x) (hn : xs.length * u ≤ 1 / 1000000) {lower upper : Flt ℝ} (hv : ValidLimits lower upper)
    (hw : Within lower upper xs) :
    clipChkR L (.fin (meanR L xs)) lower upper = .ok ((Flt.fin (meanR L xs)).clip lower upper) := by
  have hu := hg.unit_nonneg
  obtain ⟨p1, p0⟩ := small_pow hu hn
  have hl : (1 : ℝ) ≤ xs.length := by exact_mod_cast List.length_pos_iff.2 hne
  have hu1 : u ≤ 1 / 1000000 := by nlinarith
  obtain ⟨v1, v2, v3, v4, v5⟩ := hv
  unfold clipChkR
  simp only [pyAssert_bind]
  rw [if_pos]
  · rfl
  · unfold Flt.clip
    by_cases h1 : (Flt.fin (meanR L xs)).lt lower = true
    · rw [if_pos h1]
      cases lower with
      | nan => exact absurd rfl v1
      | pinf => exact absurd rfl v4
      | ninf => simp [Flt.lt] at h1; exact absurd h1 (not_lt.2 (by simp))
      | fin l =>
        have h1' : meanR L xs < l := by simpa using h1
        have hge := meanR_ge hg hs hne hG (by linarith) (h := l) fun x hx => by simpa using (hw x hx).1
        have : iscloseR L (.fin (meanR L xs)) (.fin l) = true := by
          refine allcloseR_near hg hu1 ?_
          rw [abs_sub_comm, abs_of_nonneg (by linarith [hg.tiny_nonneg])]
          have := mul_le_mul_of_nonneg_right p1 (abs_nonneg l)
          have := abs_nonneg l
          linarith
        rw [this]
        simp
    · rw [if_neg h1]
      by_cases h2 : upper.lt (.fin (meanR L xs)) = true
      · rw [if_pos h2]
        cases upper with
        | nan => exact absurd rfl v2
        | ninf => exact absurd rfl v5
        | pinf => simp [Flt.lt] at h2; exact absurd h2 (not_lt.2 (by simp))
        | fin h =>
          have h2' : h < meanR L xs := by simpa using h2
          have hle := meanR_le hg hs hne hG (by linarith) (h := h) fun x hx => by simpa using (hw x hx).2
          have : iscloseR L (.fin (meanR L xs)) (.fin h) = true := by
            refine allcloseR_near hg hu1 ?_
            rw [abs_of_nonneg (by linarith [hg.tiny_nonneg])]
            have := mul_le_mul_of_nonneg_right p1 (abs_nonneg h)
            have := abs_nonneg h
            linarith
          rw [this]
          simp
      · rw [if_neg h2]
        simp

theorem clip_between {lower upper : Flt ℝ} (hv : ValidLimits lower upper) (m : ℝ) :
    lower ≤ (Flt.fin m).clip lower upper ∧ (Flt.fin m).clip lower upper ≤ upper := by
  obtain ⟨v1, v2, v3, v4, v5⟩ := hv
  unfold Flt.clip
  cases lower <;> cases upper <;> simp_all [Flt.lt] <;> split_ifs <;> simp_all

end Mlp.Props
