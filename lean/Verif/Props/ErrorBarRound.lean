import Mathlib.Analysis.Complex.ExponentialBounds
import Verif.Lemmas.NearRel
import Verif.Props.TableRound
import Verif.Spec.FloatAccuracy

/-! # C133: accuracy of standard deviations and error bars in floating point arithmetic -/

namespace Mlp.Props
open Mlp.Paper Mlp.PaperR Mlp.PerfR Mlp.BootR Mlp.Boot Mlp.Spec Mlp.Lemmas Mlp.Round

/-! ### The root of a sum of squares as a norm -/

theorem sum_sq_expand (xs : List ℝ) (f g : ℝ → ℝ) (t : ℝ) :
    (xs.map fun x => (f x * t + g x) ^ 2).sum = (xs.map fun x => f x ^ 2).sum * t * t +
      (2 * (xs.map fun x => f x * g x).sum) * t + (xs.map fun x => g x ^ 2).sum := by
  induction xs with
  | nil => simp
  | cons x xs ih =>
    simp only [List.map_cons, List.sum_cons, ih]
    ring

theorem sum_sq_nonneg (xs : List ℝ) (f : ℝ → ℝ) : 0 ≤ (xs.map fun x => f x ^ 2).sum :=
  List.sum_nonneg fun v hv => by obtain ⟨x, -, rfl⟩ := List.mem_map.1 hv; positivity

theorem sqrt_sum_sq_add (xs : List ℝ) (f g : ℝ → ℝ) :
    Real.sqrt (xs.map fun x => (f x + g x) ^ 2).sum ≤
      Real.sqrt (xs.map fun x => f x ^ 2).sum + Real.sqrt (xs.map fun x => g x ^ 2).sum := by
  have hF := sum_sq_nonneg xs f
  have hG := sum_sq_nonneg xs g
  have hd := discrim_le_zero (K := ℝ) (a := (xs.map fun x => f x ^ 2).sum) (b := 2 * (xs.map fun x => f x * g x).sum)
    (c := (xs.map fun x => g x ^ 2).sum) fun t => by
      rw [← mul_assoc, ← sum_sq_expand]
      exact List.sum_nonneg fun v hv => by obtain ⟨x, -, rfl⟩ := List.mem_map.1 hv; positivity
  have h1 := sum_sq_expand xs f g 1
  simp only [mul_one] at h1
  rw [h1]
  unfold discrim at hd
  generalize (xs.map fun x => f x ^ 2).sum = F at *
  generalize (xs.map fun x => g x ^ 2).sum = G at *
  generalize (xs.map fun x => f x * g x).sum = C at *
  have hC : C ≤ Real.sqrt F * Real.sqrt G := by
    rw [← Real.sqrt_mul hF]
    refine Real.le_sqrt_of_sq_le ?_
    nlinarith
  rw [Real.sqrt_le_left (by positivity)]
  nlinarith [Real.sq_sqrt hF, Real.sq_sqrt hG]

theorem sqrt_sum_sq_mono {xs : List ℝ} {f g : ℝ → ℝ} (h : ∀ x ∈ xs, |f x| ≤ g x) :
    Real.sqrt (xs.map fun x => f x ^ 2).sum ≤ Real.sqrt (xs.map fun x => g x ^ 2).sum := by
  refine Real.sqrt_le_sqrt (List.sum_le_sum fun x hx => ?_)
  rw [← sq_abs (f x)]
  exact pow_le_pow_left₀ (abs_nonneg _) (h x hx) 2

theorem sqrt_sum_sq_sub (xs : List ℝ) (f g : ℝ → ℝ) :
    |Real.sqrt (xs.map fun x => f x ^ 2).sum - Real.sqrt (xs.map fun x => g x ^ 2).sum| ≤
      Real.sqrt (xs.map fun x => (f x - g x) ^ 2).sum := by
  have h1 := sqrt_sum_sq_add xs (fun x => f x - g x) g
  have h2 := sqrt_sum_sq_add xs (fun x => g x - f x) f
  simp only [sub_add_cancel] at h1 h2
  have e : (xs.map fun x => (g x - f x) ^ 2).sum = (xs.map fun x => (f x - g x) ^ 2).sum := by
    congr 1
    exact List.map_congr_left fun x _ => by ring
  rw [e] at h2
  rw [abs_le]
  constructor <;> linarith

theorem sqrt_sum_sq_const (xs : List ℝ) {t : ℝ} (ht : 0 ≤ t) :
    Real.sqrt (xs.map fun _ => t ^ 2).sum = t * Real.sqrt xs.length := by
  rw [List.map_const', List.sum_replicate, nsmul_eq_mul, mul_comm, Real.sqrt_mul (by positivity), Real.sqrt_sq ht]

theorem sqrt_sum_sq_mul (xs : List ℝ) (f : ℝ → ℝ) {t : ℝ} (ht : 0 ≤ t) :
    Real.sqrt (xs.map fun x => (t * |f x|) ^ 2).sum = t * Real.sqrt (xs.map fun x => f x ^ 2).sum := by
  simp only [mul_pow, sq_abs]
  rw [List.sum_map_mul_left, Real.sqrt_mul (by positivity), Real.sqrt_sq ht]

theorem near_sum_map {u : ℝ} {k : ℕ} {f g : ℝ → ℝ} {xs : List ℝ} (h : ∀ x ∈ xs, Near u k (f x) (g x)) :
    Near u k (xs.map f).sum (xs.map g).sum := by
  induction xs with
  | nil => simp [Near]
  | cons x xs ih =>
    simp only [List.map_cons, List.sum_cons]
    exact (h x List.mem_cons_self).add (ih fun y hy => h y (List.mem_cons_of_mem _ hy))

/-! ### Standard deviations -/

variable {L : Lib ℝ} {u : ℝ}

/-- The sum of numbers that are not negative. -/
theorem near_sum (hu : 0 ≤ u) (he : RelError u L.rnd) (hs : AddsAlongTrees L.rnd L.sum) {l : List ℝ} (hl : ∀ v ∈ l, 0 ≤ v) :
    Near u l.length (L.sum l) l.sum := by
  have h0 : 0 ≤ l.sum := List.sum_nonneg hl
  by_cases hne : l = []
  · subst hne; simp [Near, hs.1]
  have h := sum_error_signed hu he hs hne
  have e : (l.map fun v => |v|) = l := by
    conv_rhs => rw [← List.map_id l]
    exact List.map_congr_left fun v hv => abs_of_nonneg (hl v hv)
  rw [e] at h
  exact Near.mono hu (k := l.length - 1) h0 h (Nat.sub_le _ _)

/-- Few roundings together. -/
theorem pow_small (hu : 0 ≤ u) {n : ℕ} (h2 : 2 ≤ n) (hn : n * u ≤ 1 / 1000000) {k : ℕ} (hk : k ≤ n + 3) :
    (1 + u) ^ k ≤ 2 ∧ (1 + u) ^ k - 1 ≤ 5 * (n * u) := by
  have h2' : (2 : ℝ) ≤ n := by exact_mod_cast h2
  have hk' : (k : ℝ) ≤ n + 3 := by exact_mod_cast hk
  have h1 : (k : ℝ) * u ≤ (5 / 2) * (n * u) := by nlinarith
  have := pow_one_add_le hu (n := k) (by linarith)
  constructor <;> linarith

theorem rnd_nonneg (hA : AccurateLib u L) (hu1 : u ≤ 1) {x : ℝ} (hx : 0 ≤ x) : 0 ≤ L.rnd x := by
  have := (abs_le.1 (hA.rnd x)).1
  rw [abs_of_nonneg hx] at this
  nlinarith

theorem u_small (hu : 0 ≤ u) {n : ℕ} (h2 : 2 ≤ n) (hn : n * u ≤ 1 / 1000000) : u ≤ 1 / 2000000 := by
  have h2' : (2 : ℝ) ≤ n := by exact_mod_cast h2
  nlinarith

/-- What the computed standard deviation is, given the computed deviations. -/
theorem stdR_near (hA : AccurateLib u L) (hs : AddsAlongTrees L.rnd L.sum) {xs : List ℝ} (h2 : 2 ≤ xs.length)
    (hn : xs.length * u ≤ 1 / 1000000) {d : ℝ} (hd : d < xs.length) :
    0 ≤ varR L d xs ∧ Near u (xs.length + 3) (L.sqrt (varR L d xs))
      (Real.sqrt ((xs.map fun x => L.rnd (x - meanR L xs) ^ 2).sum / (xs.length - d))) := by
  have hu := hA.nonneg
  have hu1 : u ≤ 1 := (u_small hu h2 hn).trans (by norm_num)
  have hw : 0 < (xs.length : ℝ) - d := by linarith
  have h1 : Near u 1 (xs.map fun x => L.rnd (L.rnd (x - meanR L xs) * L.rnd (x - meanR L xs))).sum
      (xs.map fun x => L.rnd (x - meanR L xs) ^ 2).sum :=
    near_sum_map fun x _ => by
      rw [pow_two]
      exact near_rnd hA.rnd (mul_self_nonneg _)
  have h2' := near_sum hu hA.rnd hs (l := xs.map fun x => L.rnd (L.rnd (x - meanR L xs) * L.rnd (x - meanR L xs)))
    (fun v hv => by obtain ⟨x, -, rfl⟩ := List.mem_map.1 hv; exact rnd_nonneg hA hu1 (mul_self_nonneg _))
  rw [List.length_map] at h2'
  have hS := sum_sq_nonneg xs fun x => L.rnd (x - meanR L xs)
  have h3 := h2'.trans hu hS h1
  have hsum := h3.nonneg hS (pow_small hu h2 hn (by omega)).1
  have h4 := h3.scale (inv_nonneg.2 hw.le)
  rw [← div_eq_mul_inv, ← div_eq_mul_inv] at h4
  have h5 := h4.rnd hu hA.rnd (div_nonneg hsum hw.le) (div_nonneg hS hw.le)
  have hv : 0 ≤ varR L d xs := rnd_nonneg hA hu1 (div_nonneg hsum hw.le)
  refine ⟨hv, ?_⟩
  have h6 : Near u 1 (L.sqrt (varR L d xs)) (Real.sqrt (varR L d xs)) := by
    unfold Near
    rw [pow_one, add_sub_cancel_left]
    exact hA.sqrt _ hv
  have h7 := h6.trans hu (Real.sqrt_nonneg _) (h5.sqrt (div_nonneg hS hw.le) hv)
  exact h7.mono hu (Real.sqrt_nonneg _) (by omega)

/-- **C133, standard deviations.**  The standard deviation that `np.std` (`d = 0`) and `ss.sem` (`d = 1`) compute differs from
the exact one by at most a relative error of `6 n u` and an absolute error of `4 n u` times the average absolute value. -/
theorem C133_std (hA : AccurateLib u L) (hs : AddsAlongTrees L.rnd L.sum) {xs : List ℝ} (h2 : 2 ≤ xs.length)
    (hn : xs.length * u ≤ 1 / 1000000) {d : ℝ} (hd0 : 0 ≤ d) (hd : d ≤ 1) :
    0 ≤ varR L d xs ∧ |L.sqrt (varR L d xs) - Real.sqrt (sqDev xs / (xs.length - d))| ≤
      6 * (xs.length * u) * Real.sqrt (sqDev xs / (xs.length - d)) + 4 * (xs.length * u) * avgAbs xs := by
  have hu := hA.nonneg
  have hus := u_small hu h2 hn
  have h2' : (2 : ℝ) ≤ xs.length := by exact_mod_cast h2
  have hne : xs ≠ [] := by rintro rfl; simp at h2
  have hw : 0 < (xs.length : ℝ) - d := by linarith
  obtain ⟨hv, hnear⟩ := stdR_near hA hs h2 hn (d := d) (by linarith)
  refine ⟨hv, ?_⟩
  have hmean := C111_mean hu hA.rnd hs hne hn
  have hA0 := avgAbs_nonneg xs
  set mh := meanR L xs with hmh
  set A := avgAbs xs with hAdef
  set nu := (xs.length : ℝ) * u with hnu
  have hnu0 : 0 ≤ nu := by positivity
  have hunu : u ≤ nu / 2 := by rw [hnu]; nlinarith
  have hsq : Real.sqrt xs.length ≤ (3 / 2) * Real.sqrt (xs.length - d) := by
    rw [show (3 / 2 : ℝ) = Real.sqrt ((3 / 2) ^ 2) from (Real.sqrt_sq (by norm_num)).symm, ← Real.sqrt_mul (by positivity)]
    exact Real.sqrt_le_sqrt (by nlinarith)
  have hsw := Real.sqrt_pos.2 hw
  -- the deviations
  have hdev : ∀ x : ℝ, |L.rnd (x - mh) - (x - avg xs)| ≤ u * |x - avg xs| + (1 + u) * (2 * nu * A) := by
    intro x
    have a1 := hA.rnd (x - mh)
    have a2 : |x - mh| ≤ |x - avg xs| + |mh - avg xs| := by
      have := abs_sub_le x (avg xs) mh
      rwa [abs_sub_comm (avg xs) mh] at this
    have a3 : |L.rnd (x - mh) - (x - avg xs)| ≤ |L.rnd (x - mh) - (x - mh)| + |(x - mh) - (x - avg xs)| := abs_sub_le _ _ _
    have a4 : |(x - mh) - (x - avg xs)| = |mh - avg xs| := by
      rw [abs_sub_comm]; congr 1; ring
    rw [a4] at a3
    have a5 : u * |x - mh| ≤ u * (|x - avg xs| + |mh - avg xs|) := mul_le_mul_of_nonneg_left a2 hu
    have a6 : (1 + u) * |mh - avg xs| ≤ (1 + u) * (2 * nu * A) := mul_le_mul_of_nonneg_left hmean (by linarith)
    nlinarith
  have ht0 : 0 ≤ (1 + u) * (2 * nu * A) := by positivity
  have hdiff : |Real.sqrt (xs.map fun x => L.rnd (x - mh) ^ 2).sum - Real.sqrt (sqDev xs)| ≤
      u * Real.sqrt (sqDev xs) + (1 + u) * (2 * nu * A) * Real.sqrt xs.length := by
    refine (sqrt_sum_sq_sub xs (fun x => L.rnd (x - mh)) fun x => x - avg xs).trans ?_
    refine (sqrt_sum_sq_mono (g := fun x => u * |x - avg xs| + (1 + u) * (2 * nu * A)) fun x _ => hdev x).trans ?_
    refine (sqrt_sum_sq_add xs (fun x => u * |x - avg xs|) fun _ => (1 + u) * (2 * nu * A)).trans ?_
    rw [sqrt_sum_sq_const xs ht0, sqrt_sum_sq_mul xs (fun x => x - avg xs) hu]
    exact le_refl _
  have hD0 : 0 ≤ sqDev xs := sum_sq_nonneg xs _
  rw [Real.sqrt_div (sum_sq_nonneg xs _)] at hnear
  rw [Real.sqrt_div hD0]
  set s := Real.sqrt (xs.map fun x => L.rnd (x - mh) ^ 2).sum / Real.sqrt (xs.length - d) with hsdef
  set σ := Real.sqrt (sqDev xs) / Real.sqrt (xs.length - d) with hσ
  have hσ0 : 0 ≤ σ := by positivity
  have hsσ : |s - σ| ≤ u * σ + (1 + u) * (3 * nu * A) := by
    rw [hsdef, hσ, ← sub_div, abs_div, abs_of_pos hsw, div_le_iff₀ hsw]
    refine hdiff.trans ?_
    have : u * (Real.sqrt (sqDev xs) / Real.sqrt (xs.length - d)) * Real.sqrt (xs.length - d) = u * Real.sqrt (sqDev xs) := by
      field_simp
    have h3 : (1 + u) * (2 * nu * A) * Real.sqrt xs.length ≤ (1 + u) * (2 * nu * A) * ((3 / 2) * Real.sqrt (xs.length - d)) :=
      mul_le_mul_of_nonneg_left hsq ht0
    nlinarith
  have hp := (pow_small hu h2 hn (k := xs.length + 3) le_rfl).2
  have hs0 : 0 ≤ s := by positivity
  have h8 : |L.sqrt (varR L d xs) - s| ≤ 5 * nu * s := le_trans hnear (mul_le_mul_of_nonneg_right hp hs0)
  have h9 : |L.sqrt (varR L d xs) - σ| ≤ |L.sqrt (varR L d xs) - s| + |s - σ| := abs_sub_le _ _ _
  have h10 : s ≤ σ + |s - σ| := by linarith [le_abs_self (s - σ)]
  have hnus : nu ≤ 1 / 1000000 := hn
  have hnuA : 0 ≤ nu * A := by positivity
  have h11 : 5 * nu * s ≤ 5 * nu * (σ + (u * σ + (1 + u) * (3 * nu * A))) :=
    mul_le_mul_of_nonneg_left (by linarith) (by positivity)
  have h12 : (5 * nu * (1 + u) + u) * σ ≤ 6 * nu * σ := mul_le_mul_of_nonneg_right (by nlinarith) hσ0
  have h13 : ((1 + 5 * nu) * (1 + u) * 3) * (nu * A) ≤ 4 * (nu * A) := mul_le_mul_of_nonneg_right (by nlinarith) hnuA
  nlinarith

/-! ### Error bars -/

theorem near_sqrt (hA : AccurateLib u L) {x : ℝ} (hx : 0 ≤ x) : Near u 1 (L.sqrt x) (Real.sqrt x) := by
  unfold Near
  rw [pow_one, add_sub_cancel_left]
  exact hA.sqrt x hx

/-- `ss.t.interval` returns the quantiles `-q` and `q` up to a relative error of `u`. -/
def AccurateQuantile (u : ℝ) (L : Lib ℝ) (n : Nat) (c q : ℝ) : Prop :=
  |(L.tInterval (n - 1) c).1 + q| ≤ u * q ∧ |(L.tInterval (n - 1) c).2 - q| ≤ u * q

/-- **C133, `t_EB`.**  The computed error bar of method `'t'` differs from the exact one by at most a relative error of `14 n u` and an
absolute error of `5 n u` times the average absolute value times the quantile over root n. -/
theorem C133_t_EB (hA : AccurateLib u L) (hs : AddsAlongTrees L.rnd L.sum) {xs : List ℝ} (h2 : 2 ≤ xs.length)
    (hn : xs.length * u ≤ 1 / 1000000) {T : Nat → RefDist} (hT : IsSymmetric (T (xs.length - 1)))
    {c : ℝ} (h0 : 0 < c) (h1 : c < 1) (hq : AccurateQuantile u L xs.length c ((T (xs.length - 1)).ppf ((1 + c) / 2))) :
    ∃ e eR : ℝ, tEB T (finVec xs) (.fin c) = .ok (.fin e) ∧ tEBR L (finVec xs) (.fin c) = .ok (.fin eR) ∧ 0 ≤ eR ∧
      |eR - e| ≤ 14 * (xs.length * u) * e +
        5 * (xs.length * u) * (avgAbs xs * ((T (xs.length - 1)).ppf ((1 + c) / 2) / Real.sqrt xs.length)) := by
  obtain ⟨e, he, hpos, hev, -⟩ := C45_t_EB T h2 hT h0 h1
  have hu := hA.nonneg
  have hus := u_small hu h2 hn
  have hu1 : u ≤ 1 := hus.trans (by norm_num)
  have h2' : (2 : ℝ) ≤ xs.length := by exact_mod_cast h2
  set q := (T (xs.length - 1)).ppf ((1 + c) / 2) with hqdef
  have hq0 : 0 ≤ q := (hT.ppf_pos (by linarith) (by linarith)).le
  obtain ⟨hv, hstd⟩ := C133_std hA hs h2 hn (d := 1) (by norm_num) le_rfl
  have hss := near_sqrt hA hv
  have hsh0 : 0 ≤ L.sqrt (varR L 1 xs) := hss.nonneg (Real.sqrt_nonneg _) (by rw [pow_one]; linarith)
  set sh := L.sqrt (varR L 1 xs) with hsh
  have hrn : 0 < Real.sqrt xs.length := Real.sqrt_pos.2 (by linarith)
  obtain ⟨hrn', hinv⟩ := (near_sqrt hA (by linarith : (0 : ℝ) ≤ xs.length)).inv hu hrn (by rw [pow_one]; linarith)
  set rn := L.sqrt xs.length with hrndef
  set r := Real.sqrt (xs.length : ℝ) with hr
  have n1 := (hinv.scale hsh0).rnd hu hA.rnd (by positivity) (by positivity)
  have n2 := (n1.scale (d := 1 / 2) (by norm_num)).rnd hu hA.rnd
    (mul_nonneg (rnd_nonneg hA hu1 (by positivity)) (by norm_num)) (by positivity)
  obtain ⟨hq1, hq2⟩ := hq
  set I := L.tInterval (xs.length - 1) c with hI
  have n3 : Near u 1 (I.2 - I.1) (2 * q) := by
    unfold Near
    rw [pow_one, add_sub_cancel_left]
    have e1 : I.2 - I.1 - 2 * q = (I.2 - q) - (I.1 + q) := by ring
    rw [e1]
    refine (abs_sub _ _).trans ?_
    linarith
  have hI0 : 0 ≤ I.2 - I.1 := n3.nonneg (by positivity) (by rw [pow_one]; linarith)
  have n4 := n3.rnd hu hA.rnd hI0 (by positivity)
  have n5 := n2.mul hu (by positivity) (by positivity) n4
  have hp0 : 0 ≤ L.rnd (L.rnd (rn⁻¹ * sh) * (1 / 2)) * L.rnd (I.2 - I.1) :=
    mul_nonneg (rnd_nonneg hA hu1 (mul_nonneg (rnd_nonneg hA hu1 (by positivity)) (by norm_num))) (rnd_nonneg hA hu1 hI0)
  have n6 := n5.rnd hu hA.rnd hp0 (by positivity)
  have hEB0 := rnd_nonneg hA hu1 hp0
  refine ⟨e, L.rnd (L.rnd (L.rnd (rn⁻¹ * sh) * (1 / 2)) * L.rnd (I.2 - I.1)), he, ?_, hEB0, ?_⟩
  · unfold tEBR
    have hc : confOkR (Flt.fin c) = true := by simp [confOkR, h0, h1]
    rw [pyAssert_bind, if_pos ((noNaN_any _).2 (noNaN_finVec xs)), pyAssert_bind, if_pos hc, if_neg (informative_finVec h2)]
    simp only [finVals_finVec, numOf]
    rw [pyAssert_bind, if_pos (by simpa using hI0), pyAssert_bind]
    have e1 : L.rnd (1 / 2 * L.rnd (sh / rn)) = L.rnd (L.rnd (rn⁻¹ * sh) * (1 / 2)) := by
      rw [mul_comm (1 / 2), div_eq_mul_inv, mul_comm sh]
    rw [if_pos (by rw [← hsh, ← hrndef, e1]; simpa using hEB0), ← hsh, ← hrndef, e1]
    rfl
  · have hbase : r⁻¹ * sh * (1 / 2) * (2 * q) = sh * (q / r) := by field_simp
    rw [hbase] at n6
    have n7 := n6.bound hu (by positivity) (by push_cast; linarith)
    have hf0 : 0 ≤ q / r := by positivity
    have hee : e = Real.sqrt (sqDev xs / (xs.length - 1)) * (q / r) := by
      rw [hev]
      unfold stdErr
      ring
    set σ := Real.sqrt (sqDev xs / (xs.length - 1)) with hσ
    have hσ0 : 0 ≤ σ := Real.sqrt_nonneg _
    have h9 := abs_sub_le (L.rnd (L.rnd (L.rnd (rn⁻¹ * sh) * (1 / 2)) * L.rnd (I.2 - I.1))) (sh * (q / r)) e
    have h10 : |sh * (q / r) - e| ≤ (6 * (xs.length * u) * σ + 4 * (xs.length * u) * avgAbs xs) * (q / r) := by
      rw [hee, ← sub_mul, abs_mul, abs_of_nonneg hf0]
      exact mul_le_mul_of_nonneg_right hstd hf0
    have h11 : sh * (q / r) ≤ e + |sh * (q / r) - e| := by linarith [le_abs_self (sh * (q / r) - e)]
    have hA0 := avgAbs_nonneg xs
    push_cast at n7
    set nu := (xs.length : ℝ) * u with hnu
    have hunu : u ≤ nu / 2 := by rw [hnu]; nlinarith
    have hnu0 : 0 ≤ nu := by positivity
    have hAf : 0 ≤ avgAbs xs * (q / r) := by positivity
    have h12 : (6 * nu * σ + 4 * nu * avgAbs xs) * (q / r) = 6 * nu * e + 4 * nu * (avgAbs xs * (q / r)) := by
      rw [hee]; ring
    rw [h12] at h10
    have h13 : 2 * ((2 * 1 + 1 + 1 + (1 + 1) + 1) * u) * (sh * (q / r)) ≤ 14 * u * (e + (6 * nu * e + 4 * nu * (avgAbs xs * (q / r)))) := by
      have : 2 * ((2 * 1 + 1 + 1 + (1 + 1) + 1) * u) * (sh * (q / r)) = 14 * u * (sh * (q / r)) := by ring
      rw [this]
      exact mul_le_mul_of_nonneg_left (by linarith) (by positivity)
    have hun : u * nu ≤ 1 / 1000000 * u := by
      rw [mul_comm]; exact mul_le_mul_of_nonneg_right hn hu
    have h14 : (14 * u * (1 + 6 * nu) + 6 * nu) * e ≤ 14 * nu * e := mul_le_mul_of_nonneg_right (by linarith) hpos
    have h15 : (14 * u * 4 * nu + 4 * nu) * (avgAbs xs * (q / r)) ≤ 5 * nu * (avgAbs xs * (q / r)) :=
      mul_le_mul_of_nonneg_right (by linarith) hAf
    have h16 : 14 * u * (e + (6 * nu * e + 4 * nu * (avgAbs xs * (q / r)))) + (6 * nu * e + 4 * nu * (avgAbs xs * (q / r))) =
      (14 * u * (1 + 6 * nu) + 6 * nu) * e + (14 * u * 4 * nu + 4 * nu) * (avgAbs xs * (q / r)) := by ring
    linarith

theorem one_lt_log_three : 1 < Real.log 3 := by
  rw [Real.lt_log_iff_exp_lt (by norm_num)]
  exact Real.exp_one_lt_three

/-- A relative error of the argument is an absolute error of the logarithm. -/
theorem log_near (hu : 0 ≤ u) {k : ℕ} (hk : k * u ≤ 1 / 4) {a b : ℝ} (hb : 0 < b) (h : Near u k a b) :
    0 < a ∧ |Real.log a - Real.log b| ≤ 4 * (k * u) := by
  have h1 := h.bound hu hb.le (by linarith)
  obtain ⟨h2, h3⟩ := abs_le.1 h1
  set η := 2 * (k * u) with hη
  have hη0 : 0 ≤ η := by positivity
  have ha : (1 - η) * b ≤ a := by linarith
  have ha' : a ≤ (1 + η) * b := by linarith
  have ha0 : 0 < a := lt_of_lt_of_le (mul_pos (by linarith) hb) ha
  refine ⟨ha0, ?_⟩
  rw [← Real.log_div ha0.ne' hb.ne']
  have hr0 : 0 < a / b := by positivity
  have r1 : 1 - η ≤ a / b := by rwa [le_div_iff₀ hb]
  have r2 : a / b ≤ 1 + η := by rwa [div_le_iff₀ hb]
  have l1 := Real.log_le_sub_one_of_pos hr0
  have l2 := Real.one_sub_inv_le_log_of_pos hr0
  have l3 : (a / b)⁻¹ ≤ 1 + 2 * η := by
    rw [inv_le_comm₀ hr0 (by linarith)]
    refine le_trans ?_ r1
    rw [inv_le_iff_one_le_mul₀ (by linarith)]
    nlinarith
  rw [abs_le]
  constructor <;> linarith

/-- The logarithm in the Bernstein bound. -/
theorem near_conf (hA : AccurateLib u L) (hus : u ≤ 1 / 1000000) {c : ℝ} (h0 : 0 < c) (h1 : c < 1) :
    1 < Real.log (3 / (1 - c)) ∧ Near u 13 (L.log (L.rnd (3 / L.rnd (1 - c)))) (Real.log (3 / (1 - c))) := by
  have hu := hA.nonneg
  have hd : 0 < 1 - c := by linarith
  have ha1 : 1 < Real.log (3 / (1 - c)) := one_lt_log_three.trans (log_pos_conf h0 h1).1
  refine ⟨ha1, ?_⟩
  obtain ⟨hp, n1⟩ := (near_rnd hA.rnd hd.le).inv hu hd (by rw [pow_one]; linarith)
  have n2 := n1.scale (d := 3) (by norm_num)
  rw [inv_mul_eq_div, inv_mul_eq_div] at n2
  have n3 := n2.rnd hu hA.rnd (by positivity) (by positivity)
  obtain ⟨hp', hl⟩ := log_near hu (by push_cast; linarith) (by positivity) n3
  have n4 : Near u 12 (Real.log (L.rnd (3 / L.rnd (1 - c)))) (Real.log (3 / (1 - c))) := by
    refine le_trans hl ?_
    have hb := one_add_mul_le_pow (a := u) (by linarith) 12
    push_cast at hb ⊢
    calc 4 * (3 * u) = 12 * u * 1 := by ring
      _ ≤ 12 * u * Real.log (3 / (1 - c)) := mul_le_mul_of_nonneg_left ha1.le (by positivity)
      _ ≤ ((1 + u) ^ 12 - 1) * Real.log (3 / (1 - c)) := mul_le_mul_of_nonneg_right (by linarith) (by linarith)
  have hpow : (1 + u) ^ 12 ≤ 2 := by
    have := pow_one_add_le hu (n := 12) (by push_cast; linarith)
    push_cast at this
    linarith
  have hn0 := n4.nonneg (by linarith) hpow
  have n5 : Near u 1 (L.log (L.rnd (3 / L.rnd (1 - c)))) (Real.log (L.rnd (3 / L.rnd (1 - c)))) := by
    unfold Near
    rw [pow_one, add_sub_cancel_left]
    refine (hA.log _ hp').trans ?_
    rw [abs_of_nonneg hn0]
  exact (n5.trans hu (by linarith) n4).mono hu (by linarith) (by norm_num)

/-- **C133, `bernstein_EB`.**  The computed Bernstein error bar differs from the exact one by at most a relative error of `25 n u`
and an absolute error of `5 n u` times the average absolute value times the root of `2 log (3 / (1 - c)) / n`. -/
theorem C133_bernstein_EB (hA : AccurateLib u L) (hs : AddsAlongTrees L.rnd L.sum) {xs : List ℝ} (h2 : 2 ≤ xs.length)
    (hn : xs.length * u ≤ 1 / 1000000) {lo hi : ℝ} (hlu : lo ≤ hi) (hw : ∀ x ∈ xs, lo ≤ x ∧ x ≤ hi)
    {c : ℝ} (h0 : 0 < c) (h1 : c < 1) :
    ∃ e eR : ℝ, bernsteinEB (finVec xs) (.fin lo) (.fin hi) (.fin c) = .ok (.fin e) ∧
      bernsteinEBR L (finVec xs) (.fin lo) (.fin hi) (.fin c) = .ok (.fin eR) ∧ 0 ≤ eR ∧
      |eR - e| ≤ 25 * (xs.length * u) * e +
        5 * (xs.length * u) * (avgAbs xs * Real.sqrt (2 * Real.log (3 / (1 - c)) / xs.length)) := by
  obtain ⟨he, hpos, -, -⟩ := C47_bernstein_EB h2 hlu hw h0 h1
  have hu := hA.nonneg
  have hus := u_small hu h2 hn
  have hu1 : u ≤ 1 := hus.trans (by norm_num)
  have h2' : (2 : ℝ) ≤ xs.length := by exact_mod_cast h2
  have hN : (0 : ℝ) < xs.length := by linarith
  obtain ⟨ha1, na⟩ := near_conf hA (hus.trans (by norm_num)) h0 h1
  set a := Real.log (3 / (1 - c)) with hadef
  set ah := L.log (L.rnd (3 / L.rnd (1 - c))) with hah
  have hpow : (1 + u) ^ 13 ≤ 2 := by
    have := pow_one_add_le hu (n := 13) (by push_cast; linarith)
    push_cast at this
    linarith
  have hah0 : 0 ≤ ah := na.nonneg (by linarith) hpow
  obtain ⟨hv, hstd⟩ := C133_std hA hs h2 hn (d := 0) le_rfl (by norm_num)
  have hsh0 : 0 ≤ L.sqrt (varR L 0 xs) := (near_sqrt hA hv).nonneg (Real.sqrt_nonneg _) (by rw [pow_one]; linarith)
  set sh := L.sqrt (varR L 0 xs) with hsh
  have hR0 : 0 ≤ hi - lo := by linarith
  have hRh0 := rnd_nonneg hA hu1 hR0
  have hi0 : 0 ≤ (xs.length : ℝ)⁻¹ := by positivity
  -- the first term
  have m1 := (na.scale (d := 2) (by norm_num)).rnd hu hA.rnd (by positivity) (by positivity)
  have hm1 := rnd_nonneg hA hu1 (x := ah * 2) (by positivity)
  have m2 := (m1.scale hi0).rnd hu hA.rnd (by positivity) (by positivity)
  have hm2 := rnd_nonneg hA hu1 (x := L.rnd (ah * 2) * (xs.length : ℝ)⁻¹) (by positivity)
  have m3 := m2.sqrt (by positivity) hm2
  have m4 := (near_sqrt hA hm2).trans hu (by positivity) m3
  have hm4 : 0 ≤ L.sqrt (L.rnd (L.rnd (ah * 2) * (xs.length : ℝ)⁻¹)) :=
    (near_sqrt hA hm2).nonneg (Real.sqrt_nonneg _) (by rw [pow_one]; linarith)
  have m5 := (m4.scale hsh0).rnd hu hA.rnd (by positivity) (by positivity)
  have hm5 := rnd_nonneg hA hu1 (x := L.sqrt (L.rnd (L.rnd (ah * 2) * (xs.length : ℝ)⁻¹)) * sh) (by positivity)
  -- the second term
  have k1 := (na.scale (d := 3) (by norm_num)).rnd hu hA.rnd (by positivity) (by positivity)
  have hk1 := rnd_nonneg hA hu1 (x := ah * 3) (by positivity)
  have k2 := (k1.mul hu (by positivity) hR0 (near_rnd hA.rnd hR0)).rnd hu hA.rnd (by positivity) (by positivity)
  have hk2 := rnd_nonneg hA hu1 (x := L.rnd (ah * 3) * L.rnd (hi - lo)) (by positivity)
  have k3 := (k2.scale hi0).rnd hu hA.rnd (by positivity) (by positivity)
  have hk3 := rnd_nonneg hA hu1 (x := L.rnd (L.rnd (ah * 3) * L.rnd (hi - lo)) * (xs.length : ℝ)⁻¹) (by positivity)
  have t := ((m5.mono hu (by positivity) (by norm_num : _ ≤ 17)).add (k3.mono hu (by positivity) (by norm_num : _ ≤ 17))).rnd hu hA.rnd
    (by positivity) (by positivity)
  have ht := rnd_nonneg hA hu1 (add_nonneg hm5 hk3)
  set eR := L.rnd (L.rnd (L.sqrt (L.rnd (L.rnd (ah * 2) * (xs.length : ℝ)⁻¹)) * sh) +
    L.rnd (L.rnd (L.rnd (ah * 3) * L.rnd (hi - lo)) * (xs.length : ℝ)⁻¹)) with heR
  refine ⟨_, eR, he, ?_, ht, ?_⟩
  · unfold bernsteinEBR
    have hc : confOkR (Flt.fin c) = true := by simp [confOkR, h0, h1]
    have hsub : rF L.rnd ((Flt.fin hi).sub (Flt.fin lo)) = .fin (L.rnd (hi - lo)) := rfl
    rw [pyAssert_bind, if_pos ((noNaN_any _).2 (noNaN_finVec xs)), hsub, pyAssert_bind, if_pos (by simpa using hRh0),
      pyAssert_bind, if_pos ((within_finVec (by simp) xs).2 fun x hx => ⟨by simpa using (hw x hx).1, by simpa using (hw x hx).2⟩), pyAssert_bind, if_pos hc, if_neg (informative_finVec h2)]
    simp only [finVals_finVec, numOf, Flt.mul, rF, Flt.div, if_neg hN.ne', Flt.add]
    have e1 : L.rnd (L.rnd (L.sqrt (varR L 0 xs) * L.sqrt (L.rnd (L.rnd (2 * L.log (L.rnd (3 / L.rnd (1 - c)))) / xs.length))) +
        L.rnd (L.rnd (L.rnd (3 * L.log (L.rnd (3 / L.rnd (1 - c)))) * L.rnd (hi - lo)) / xs.length)) = eR := by
      rw [heR, ← hah, ← hsh, mul_comm 2 ah, mul_comm 3 ah, mul_comm sh, div_eq_mul_inv, div_eq_mul_inv]
    rw [e1, pyAssert_bind, if_pos (by simpa using ht)]
    rfl
  · unfold bernWidth
    set rt := Real.sqrt (2 * a / xs.length) with hrt
    have hrt0 : 0 ≤ rt := Real.sqrt_nonneg _
    have hbase : Real.sqrt (a * 2 * (xs.length : ℝ)⁻¹) * sh + a * 3 * (hi - lo) * (xs.length : ℝ)⁻¹ =
        sh * rt + 3 * a * (hi - lo) / xs.length := by
      rw [hrt, div_eq_mul_inv, div_eq_mul_inv, mul_comm a 2, mul_comm a 3]
      ring
    rw [hbase] at t
    set w := 3 * a * (hi - lo) / xs.length with hw'
    have hw0 : 0 ≤ w := by positivity
    have n7 := t.bound hu (by positivity) (by push_cast; linarith)
    rw [sub_zero] at hstd
    set σ := Real.sqrt (sqDev xs / xs.length) with hσ
    have hσ0 : 0 ≤ σ := Real.sqrt_nonneg _
    have hA0 := avgAbs_nonneg xs
    push_cast at n7
    set nu := (xs.length : ℝ) * u with hnu
    have hnu0 : 0 ≤ nu := by positivity
    have hunu : u ≤ nu / 2 := by rw [hnu]; nlinarith
    have hun : u * nu ≤ 1 / 1000000 * u := by
      rw [mul_comm]; exact mul_le_mul_of_nonneg_right hn hu
    have h10 : |sh * rt + w - (σ * rt + w)| ≤ 6 * nu * (σ * rt + w) + 4 * nu * (avgAbs xs * rt) := by
      have e2 : sh * rt + w - (σ * rt + w) = (sh - σ) * rt := by ring
      rw [e2, abs_mul, abs_of_nonneg hrt0]
      refine (mul_le_mul_of_nonneg_right hstd hrt0).trans ?_
      have : 0 ≤ 6 * nu * w := by positivity
      linarith
    set e := σ * rt + w with hee
    have he0 : 0 ≤ e := by positivity
    have h9 := abs_sub_le eR (sh * rt + w) e
    have h11 : sh * rt + w ≤ e + (6 * nu * e + 4 * nu * (avgAbs xs * rt)) := by linarith [le_abs_self (sh * rt + w - e)]
    have h13 : 2 * ((17 + 1) * u) * (sh * rt + w) ≤ 36 * u * (e + (6 * nu * e + 4 * nu * (avgAbs xs * rt))) := by
      have : 2 * ((17 + 1) * u) * (sh * rt + w) = 36 * u * (sh * rt + w) := by ring
      rw [this]
      exact mul_le_mul_of_nonneg_left h11 (by positivity)
    have h14 : (36 * u * (1 + 6 * nu) + 6 * nu) * e ≤ 25 * nu * e := mul_le_mul_of_nonneg_right (by linarith) he0
    have h15 : (36 * u * 4 * nu + 4 * nu) * (avgAbs xs * rt) ≤ 5 * nu * (avgAbs xs * rt) :=
      mul_le_mul_of_nonneg_right (by linarith) (by positivity)
    have h16 : 36 * u * (e + (6 * nu * e + 4 * nu * (avgAbs xs * rt))) + (6 * nu * e + 4 * nu * (avgAbs xs * rt)) =
      (36 * u * (1 + 6 * nu) + 6 * nu) * e + (36 * u * 4 * nu + 4 * nu) * (avgAbs xs * rt) := by ring
    linarith

end Mlp.Props
