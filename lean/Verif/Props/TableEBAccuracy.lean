import Verif.Props.MeanEBAccuracy
import Verif.Props.TableCoverage

/-! # C134: accuracy of the error bars of `loss_summary_table` -/

namespace Mlp.Props
open Mlp.Paper Mlp.PaperR Mlp.PerfR Mlp.BootR Mlp.Boot Mlp.Spec Mlp.Lemmas Mlp.Round

variable {L : Lib ℝ} {u : ℝ}

theorem sum_sq_sub_const (xs : List ℝ) (g : ℝ → ℝ) (a : ℝ) : (xs.map fun x => (g x - a) ^ 2).sum =
    (xs.map fun x => g x ^ 2).sum - 2 * a * (xs.map g).sum + xs.length * a ^ 2 := by
  induction xs with
  | nil => simp
  | cons x xs ih =>
    simp only [List.map_cons, List.sum_cons, ih, List.length_cons]
    push_cast
    ring

theorem abs_avg_le {xs : List ℝ} : |avg xs| ≤ avgAbs xs := by
  unfold avg avgAbs
  rw [abs_div, abs_of_nonneg (by positivity : (0 : ℝ) ≤ xs.length)]
  refine div_le_div_of_nonneg_right ?_ (by positivity)
  induction xs with
  | nil => simp
  | cons x xs ih =>
    simp only [List.map_cons, List.sum_cons]
    exact (abs_add_le _ _).trans (by linarith)

/-- Rounding the data: the standard deviation. -/
theorem std_perturb (hu : 0 ≤ u) {xs : List ℝ} (h2 : 2 ≤ xs.length) {f : ℝ → ℝ} (hf : ∀ x ∈ xs, |f x - x| ≤ u * |x|) {d : ℝ}
    (hd0 : 0 ≤ d) (hd : d ≤ 1) :
    |Real.sqrt (sqDev (xs.map f) / (xs.length - d)) - Real.sqrt (sqDev xs / (xs.length - d))| ≤
      u * (Real.sqrt (sqDev xs / (xs.length - d)) + 2 * avgAbs xs) := by
  have h2' : (2 : ℝ) ≤ xs.length := by exact_mod_cast h2
  have hw : 0 < (xs.length : ℝ) - d := by linarith
  have hsw := Real.sqrt_pos.2 hw
  have hsq : Real.sqrt xs.length ≤ (3 / 2) * Real.sqrt (xs.length - d) := by
    rw [show (3 / 2 : ℝ) = Real.sqrt ((3 / 2) ^ 2) from (Real.sqrt_sq (by norm_num)).symm, ← Real.sqrt_mul (by positivity)]
    exact Real.sqrt_le_sqrt (by nlinarith)
  set m := avg xs with hm
  set m' := avg (xs.map f) with hm'
  have e1 : sqDev (xs.map f) = (xs.map fun x => (f x - m') ^ 2).sum := by
    unfold sqDev
    rw [List.map_map]
    rfl
  have hg : (xs.map fun x => f x - x).sum = xs.length * (m' - m) := by
    rw [hm', hm]
    unfold avg
    rw [List.length_map, ← sub_div, mul_div_cancel₀ _ (by linarith)]
    clear_value m m'
    clear hm hm' e1 hsq hsw hw h2 h2' hf
    induction xs with
    | nil => simp
    | cons x xs ih =>
      simp only [List.map_cons, List.sum_cons, ih]
      ring
  have h3 := sqrt_sum_sq_sub xs (fun x => f x - m') fun x => x - m
  have h4 : Real.sqrt (xs.map fun x => ((f x - m') - (x - m)) ^ 2).sum ≤ Real.sqrt (xs.map fun x => (f x - x) ^ 2).sum := by
    refine Real.sqrt_le_sqrt ?_
    have e : (xs.map fun x => ((f x - m') - (x - m)) ^ 2) = xs.map fun x => ((f x - x) - (m' - m)) ^ 2 :=
      List.map_congr_left fun x _ => by ring
    rw [e, sum_sq_sub_const xs (fun x => f x - x) (m' - m), hg]
    have : 0 ≤ (xs.length : ℝ) * (m' - m) ^ 2 := by positivity
    nlinarith
  have h5 : Real.sqrt (xs.map fun x => (f x - x) ^ 2).sum ≤ u * Real.sqrt (xs.map fun x => x ^ 2).sum := by
    refine (sqrt_sum_sq_mono (g := fun x => u * |x|) hf).trans ?_
    rw [sqrt_sum_sq_mul xs (fun x => x) hu]
  have h6 : Real.sqrt (xs.map fun x => x ^ 2).sum ≤ Real.sqrt (sqDev xs) + avgAbs xs * Real.sqrt xs.length := by
    have := sqrt_sum_sq_add xs (fun x => x - m) fun _ => m
    simp only [sub_add_cancel] at this
    refine this.trans (add_le_add (le_of_eq rfl) ?_)
    have e : (xs.map fun _ => m ^ 2) = xs.map fun _ => |m| ^ 2 := by simp
    rw [e, sqrt_sum_sq_const xs (abs_nonneg m)]
    exact mul_le_mul_of_nonneg_right abs_avg_le (Real.sqrt_nonneg _)
  have h7 : |Real.sqrt (sqDev (xs.map f)) - Real.sqrt (sqDev xs)| ≤ u * (Real.sqrt (sqDev xs) + avgAbs xs * Real.sqrt xs.length) := by
    rw [e1]
    exact h3.trans (h4.trans (h5.trans (mul_le_mul_of_nonneg_left h6 hu)))
  rw [Real.sqrt_div (sqDev_nonneg _), Real.sqrt_div (sqDev_nonneg _), ← sub_div, abs_div, abs_of_pos hsw, div_le_iff₀ hsw]
  refine h7.trans ?_
  rw [mul_assoc]
  refine mul_le_mul_of_nonneg_left ?_ hu
  rw [add_mul, div_mul_cancel₀ _ hsw.ne']
  have hA0 := avgAbs_nonneg xs
  have : avgAbs xs * Real.sqrt xs.length ≤ avgAbs xs * ((3 / 2) * Real.sqrt (xs.length - d)) := mul_le_mul_of_nonneg_left hsq hA0
  have : 0 ≤ avgAbs xs * Real.sqrt (xs.length - d) := by positivity
  linarith

/-- Rounding the data: the averages. -/
theorem avg_perturb {xs : List ℝ} {f : ℝ → ℝ} (hf : ∀ x ∈ xs, |f x - x| ≤ u * |x|) :
    |avg (xs.map f) - avg xs| ≤ u * avgAbs xs ∧ avgAbs (xs.map f) ≤ (1 + u) * avgAbs xs := by
  have key : |(xs.map f).sum - xs.sum| ≤ u * (xs.map fun x => |x|).sum ∧
      ((xs.map f).map fun x => |x|).sum ≤ (1 + u) * (xs.map fun x => |x|).sum := by
    induction xs with
    | nil => simp
    | cons x xs ih =>
      obtain ⟨i1, i2⟩ := ih fun y hy => hf y (List.mem_cons_of_mem _ hy)
      have h := hf x List.mem_cons_self
      simp only [List.map_cons, List.sum_cons]
      constructor
      · have e : f x + (xs.map f).sum - (x + xs.sum) = (f x - x) + ((xs.map f).sum - xs.sum) := by ring
        rw [e]
        refine (abs_add_le _ _).trans ?_
        linarith
      · have h1 : |f x| ≤ |f x - x| + |x| := by simpa using abs_add_le (f x - x) x
        linarith
  unfold avgAbs avg
  simp only [List.length_map]
  constructor
  · rw [← sub_div, abs_div, abs_of_nonneg (by positivity : (0 : ℝ) ≤ xs.length), ← mul_div_assoc]
    exact div_le_div_of_nonneg_right key.1 (by positivity)
  · rw [← mul_div_assoc]
    exact div_le_div_of_nonneg_right key.2 (by positivity)

/-- The exact results for data and limits that differ a little. -/
theorem mean_EB_perturb (T : Nat → RefDist) {xs xs' : List ℝ} (hne : xs ≠ []) (hne' : xs' ≠ []) {lower upper lower' upper' : Flt ℝ}
    (hv : ValidLimits lower upper) (hw : Within lower upper xs) (hv' : ValidLimits lower' upper') (hw' : Within lower' upper' xs')
    {c : Flt ℝ} {method : EBMethod} {counts : List (List Nat)} {e0 e0' : Flt ℝ}
    (he : rawBar T (finVec xs) c lower upper method counts = .ok e0)
    (he' : rawBar T (finVec xs') c lower' upper' method counts = .ok e0') {d : ℝ} (hc : CloseF d e0' e0)
    (hd : (∃ R R' : ℝ, lower = .fin (-R) ∧ upper = .fin R ∧ lower' = .fin (-R') ∧ upper' = .fin R' ∧
        |R' - R| + |avg xs' - avg xs| ≤ d) ∨
      (lower = .ninf ∧ upper = .pinf ∧ lower' = .ninf ∧ upper' = .pinf)) :
    ∃ e e' : Flt ℝ, getMeanEB T (finVec xs) c (.fin 0) lower upper method counts = .ok (.fin (avg xs), e) ∧
      getMeanEB T (finVec xs') c (.fin 0) lower' upper' method counts = .ok (.fin (avg xs'), e') ∧ CloseF d e' e := by
  have hb2 : ∀ lower upper : Flt ℝ, ValidLimits lower upper → Flt.fin (2 * 0) ≤ upper.sub lower := by
    intro lower upper hv
    obtain ⟨v1, v2, v3, v4, v5⟩ := hv
    cases lower <;> cases upper <;> simp_all [Flt.sub, Flt.add, Flt.neg]
  have run : ∀ {xs : List ℝ} {lower upper e0 : Flt ℝ}, xs ≠ [] → ValidLimits lower upper → Within lower upper xs →
      rawBar T (finVec xs) c lower upper method counts = .ok e0 →
      getMeanEB T (finVec xs) c (.fin 0) lower upper method counts = .ok (.fin (avg xs),
        e0.clip (.fin 0) (Flt.fmax (upper.sub (.fin (avg xs))) ((Flt.fin (avg xs)).sub lower))) := by
    intro xs lower upper e0 hne hv hw he
    obtain ⟨ha1, ha2⟩ := avg_mem hne hw
    unfold getMeanEB
    rw [pyAssert_bind, if_pos ((within_finVec hv.2.1 xs).2 hw)]
    change (rawBar T (finVec xs) c lower upper method counts >>= _) = _
    rw [he, ok_bind, mean_finVec hne, clipChk_id (by simp) hv.1 hv.2.1 ha1 ha2, ok_bind,
      clipEB_value e0 hv le_rfl ha1 ha2 (hb2 _ _ hv), ok_bind]
    rfl
  refine ⟨_, _, run hne hv hw he, run hne' hv' hw' he', CloseF.clip hc ?_ ?_ ?_⟩
  · rcases hd with ⟨R, R', rfl, rfl, rfl, rfl, hd⟩ | ⟨rfl, rfl, rfl, rfl⟩
    · right
      refine ⟨max (R' - avg xs') (avg xs' + R'), max (R - avg xs) (avg xs + R), by simp [Flt.fmax_fin], by simp [Flt.fmax_fin], ?_⟩
      refine (abs_max_sub_max_le_max _ _ _ _).trans (max_le ?_ ?_)
      · have e : R' - avg xs' - (R - avg xs) = (R' - R) - (avg xs' - avg xs) := by ring
        rw [e]
        exact (abs_sub _ _).trans hd
      · have e : avg xs' + R' - (avg xs + R) = (R' - R) + (avg xs' - avg xs) := by ring
        rw [e]
        exact (abs_add_le _ _).trans hd
    · left
      simp [Flt.sub, Flt.add, Flt.neg, Flt.fmax]
  · obtain ⟨ha1, ha2⟩ := avg_mem hne' hw'
    exact (trivial_facts hv' ha1 ha2 (not_lt.2 (hb2 _ _ hv'))).2
  · obtain ⟨ha1, ha2⟩ := avg_mem hne hw
    exact (trivial_facts hv ha1 ha2 (not_lt.2 (hb2 _ _ hv))).2

/-- Average and scale of data within symmetric limits. -/
theorem avgAbs_le_sym {ds : List ℝ} (hne : ds ≠ []) {R : ℝ} (hw : ∀ x ∈ ds, -R ≤ x ∧ x ≤ R) : avgAbs ds ≤ R :=
  avg_le_of hne fun x hx => abs_le.2 (hw x hx)

theorem sym_nonneg {ds : List ℝ} (hne : ds ≠ []) {R : ℝ} (hw : ∀ x ∈ ds, -R ≤ x ∧ x ≤ R) : 0 ≤ R :=
  (avgAbs_nonneg ds).trans (avgAbs_le_sym hne hw)

theorem rnd_close (hA : AccurateLib u L) {R : ℝ} (hR : 0 ≤ R) : |L.rnd R - R| ≤ u * R := by
  have := hA.rnd R
  rwa [abs_of_nonneg hR] at this

section
variable {ds : List ℝ} (hne : ds ≠ []) {R : ℝ} (hw : ∀ x ∈ ds, -R ≤ x ∧ x ≤ R) (hw' : ∀ x ∈ ds.map L.rnd, -L.rnd R ≤ x ∧ x ≤ L.rnd R)
  (hn : ds.length * u ≤ 1 / 1000000) {c : ℝ} (h0 : 0 < c) (h1 : c < 1)
include hne hw hw' hn h0 h1

theorem pair_bernstein (hL : GoodLib L) (hA : AccurateLib u L) (T : Nat → RefDist) (counts : List (List Nat)) :
    ∃ muR e eR : ℝ, getMeanEB T (finVec ds) (.fin c) (.fin 0) (.fin (-R)) (.fin R) .bernstein counts = .ok (.fin (avg ds), .fin e) ∧
      getMeanEBR L (finVec (ds.map L.rnd)) (.fin c) (.fin 0) (.fin (-L.rnd R)) (.fin (L.rnd R)) .bernstein counts = .ok (.fin muR, .fin eR) ∧
      |eR - e| ≤ 138 * (ds.length * u) * (Real.log (3 / (1 - c)) * R) := by
  have hu := hA.nonneg
  have hg := gradual_of_relError hL.rnd hL.double hu hA.rnd
  have hR0 := sym_nonneg hne hw
  have hA1 := avgAbs_le_sym hne hw
  have hl1 : (1 : ℝ) ≤ ds.length := by exact_mod_cast List.length_pos_iff.2 hne
  have hu1 : u ≤ 1 / 1000000 := by nlinarith
  have hu' : u ≤ ds.length * u := by nlinarith
  have hnu0 : 0 ≤ (ds.length : ℝ) * u := by positivity
  have ha1 : 1 < Real.log (3 / (1 - c)) := one_lt_log_three.trans (log_pos_conf h0 h1).1
  have hRc := rnd_close hA hR0
  have hR'0 : 0 ≤ L.rnd R := rnd_nonneg hA (hu1.trans (by norm_num)) hR0
  have hne' : ds.map L.rnd ≠ [] := by simpa using hne
  have hf : ∀ x ∈ ds, |L.rnd x - x| ≤ u * |x| := fun x _ => hA.rnd x
  obtain ⟨p1, -⟩ := avg_perturb hf
  obtain ⟨muR, e', eR, g1, g2, -, g4⟩ := C133_mean_and_EB_bernstein hL hA T hne' (by simpa using hn) (by linarith : -L.rnd R ≤ L.rnd R) hw'
    h0 h1 le_rfl hg.zero (by linarith) counts
  rw [abs_neg, max_self, abs_of_nonneg hR'0, List.length_map] at g4
  set a := Real.log (3 / (1 - c)) with ha
  have hraw : ∃ e0 e0' : ℝ, bernsteinEB (finVec ds) (.fin (-R)) (.fin R) (.fin c) = .ok (.fin e0) ∧
      bernsteinEB (finVec (ds.map L.rnd)) (.fin (-L.rnd R)) (.fin (L.rnd R)) (.fin c) = .ok (.fin e0') ∧ |e0' - e0| ≤ 7 * u * (a * R) := by
    rcases Nat.lt_or_ge 1 ds.length with h2 | h2
    · have k1 := (C47_bernstein_EB h2 (by linarith : -R ≤ R) hw h0 h1).1
      have k2 := (C47_bernstein_EB (by rw [List.length_map]; exact h2) (by linarith : -L.rnd R ≤ L.rnd R) hw' h0 h1).1
      refine ⟨_, _, k1, k2, ?_⟩
      have h2' : (2 : ℝ) ≤ ds.length := by exact_mod_cast h2
      have hσ : Real.sqrt (sqDev ds / ds.length) ≤ 2 * R := by
        refine le_trans (Real.sqrt_le_sqrt (y := (R - -R) ^ 2) ?_) ?_
        · rw [div_le_iff₀ (by linarith), mul_comm]
          exact sqDev_le_range hne hw
        · rw [Real.sqrt_sq (by linarith)]
          linarith
      have hrt : Real.sqrt (2 * a / ds.length) ≤ a := by
        rw [Real.sqrt_le_left (by linarith), div_le_iff₀ (by linarith)]
        nlinarith
      have hs := std_perturb hu h2 hf (d := 0) le_rfl (by norm_num)
      rw [sub_zero] at hs
      unfold bernWidth
      rw [List.length_map, ← ha]
      set rt := Real.sqrt (2 * a / ds.length) with hrt'
      have hrt0 : 0 ≤ rt := Real.sqrt_nonneg _
      have e1 : Real.sqrt (sqDev (ds.map L.rnd) / ds.length) * rt + 3 * a * (L.rnd R - -L.rnd R) / ds.length -
          (Real.sqrt (sqDev ds / ds.length) * rt + 3 * a * (R - -R) / ds.length) =
          (Real.sqrt (sqDev (ds.map L.rnd) / ds.length) - Real.sqrt (sqDev ds / ds.length)) * rt + 6 * a / ds.length * (L.rnd R - R) := by ring
      rw [e1]
      refine (abs_add_le _ _).trans ?_
      rw [abs_mul, abs_mul, abs_of_nonneg hrt0, abs_of_nonneg (by positivity : 0 ≤ 6 * a / (ds.length : ℝ))]
      have t1 : |Real.sqrt (sqDev (ds.map L.rnd) / ds.length) - Real.sqrt (sqDev ds / ds.length)| * rt ≤ u * (4 * R) * a :=
        mul_le_mul (hs.trans (mul_le_mul_of_nonneg_left (by linarith) hu)) hrt hrt0 (by positivity)
      have t2 : 6 * a / ds.length ≤ 3 * a := by
        rw [div_le_iff₀ (by linarith)]
        nlinarith
      have t3 : 6 * a / ds.length * |L.rnd R - R| ≤ 3 * a * (u * R) := mul_le_mul t2 hRc (abs_nonneg _) (by linarith)
      linarith
    · have hEB : ∀ {xs : List ℝ} {r : ℝ}, xs.length ≤ 1 → 0 ≤ r → (∀ x ∈ xs, -r ≤ x ∧ x ≤ r) →
          bernsteinEB (finVec xs) (.fin (-r)) (.fin r) (.fin c) = .ok (.fin (2 * r)) := by
        intro xs r hx hr hw
        have hv : ValidLimits (.fin (-r)) (.fin r : Flt ℝ) := by simp [ValidLimits]; linarith
        rw [((C47_degenerate hv (noNaN_finVec _) (fun v hv' => by
          unfold finVec at hv'
          obtain ⟨x, hx, rfl⟩ := List.mem_map.1 hv'
          exact ⟨by simpa using (hw x hx).1, by simpa using (hw x hx).2⟩)
          h0 h1).1 (Or.inl (by simpa [finVec] using hx))).2]
        simp only [Flt.sub_fin]
        congr 2
        ring
      refine ⟨_, _, hEB h2 hR0 hw, hEB (by simpa using h2) hR'0 hw', ?_⟩
      rw [← mul_sub, abs_mul, abs_two]
      have : u * R ≤ u * (a * R) := mul_le_mul_of_nonneg_left (by nlinarith) hu
      have : 0 ≤ u * (a * R) := by positivity
      linarith
  obtain ⟨e0, e0', k1, k2, k3⟩ := hraw
  obtain ⟨e, e'', q1, q2, q3⟩ := mean_EB_perturb T hne hne' (lower := .fin (-R)) (upper := .fin R) (lower' := .fin (-L.rnd R)) (upper' := .fin (L.rnd R))
    (by simp [ValidLimits]; linarith)
    (fun x hx => ⟨by simpa using (hw x hx).1, by simpa using (hw x hx).2⟩) (by simp [ValidLimits]; linarith)
    (fun x hx => ⟨by simpa using (hw' x hx).1, by simpa using (hw' x hx).2⟩) (c := .fin c) (method := .bernstein) (counts := counts) k1 k2
    (Or.inr ⟨_, _, rfl, rfl, k3⟩) (Or.inl ⟨R, L.rnd R, rfl, rfl, rfl, rfl, by
      have : u * avgAbs ds ≤ u * R := mul_le_mul_of_nonneg_left hA1 hu
      have : u * R ≤ u * (a * R) := mul_le_mul_of_nonneg_left (by nlinarith) hu
      have : 0 ≤ u * (a * R) := by positivity
      linarith⟩)
  rw [g1, Except.ok.injEq, Prod.mk.injEq] at q2
  obtain ⟨-, rfl⟩ := q2
  rcases q3 with ⟨q, -⟩ | ⟨x, y, hx, rfl, q3⟩
  · cases q
  · cases hx
    refine ⟨muR, y, eR, q1, g2, ?_⟩
    have t1 := abs_sub_le eR e' y
    have t2 : 130 * (ds.length * u) * (a * L.rnd R) ≤ 130 * (ds.length * u) * (a * ((1 + u) * R)) := by
      have := (abs_le.1 hRc).2
      refine mul_le_mul_of_nonneg_left (mul_le_mul_of_nonneg_left (by linarith) (by linarith)) (by positivity)
    have t3 : u * (a * R) ≤ ds.length * u * (a * R) := mul_le_mul_of_nonneg_right hu' (by positivity)
    have t4 : 130 * (ds.length * u) * (a * ((1 + u) * R)) = 130 * (ds.length * u * (a * R)) + 130 * (ds.length * u) * (u * (a * R)) := by ring
    have t5 : 130 * (ds.length * u) * (u * (a * R)) ≤ 1 * (u * (a * R)) := mul_le_mul_of_nonneg_right (by linarith) (by positivity)
    linarith

end

/-- Rounding the data: the standard errors. -/
theorem stdErr_perturb (hu : 0 ≤ u) {xs : List ℝ} (h2 : 2 ≤ xs.length) {f : ℝ → ℝ} (hf : ∀ x ∈ xs, |f x - x| ≤ u * |x|) :
    |stdErr (xs.map f) - stdErr xs| ≤ u * (stdErr xs + 2 * (avgAbs xs / Real.sqrt xs.length)) := by
  have h := std_perturb hu h2 hf (d := 1) (by norm_num) le_rfl
  unfold stdErr
  rw [List.length_map, ← sub_div, abs_div, abs_of_nonneg (Real.sqrt_nonneg (xs.length : ℝ))]
  refine (div_le_div_of_nonneg_right h (Real.sqrt_nonneg _)).trans (le_of_eq ?_)
  ring

theorem stdErr_le_sym {xs : List ℝ} (h2 : 2 ≤ xs.length) {R : ℝ} (hw : ∀ x ∈ xs, -R ≤ x ∧ x ≤ R) : stdErr xs ≤ 2 * R := by
  have hne : xs ≠ [] := by rintro rfl; simp at h2
  have hR := sym_nonneg hne hw
  have h2' : (2 : ℝ) ≤ xs.length := by exact_mod_cast h2
  unfold stdErr
  rw [← Real.sqrt_div (div_nonneg (sqDev_nonneg xs) (by linarith))]
  refine le_trans (Real.sqrt_le_sqrt (y := (R - -R) ^ 2) ?_) ?_
  · rw [div_div, div_le_iff₀ (by nlinarith)]
    refine (sqDev_le_range hne hw).trans ?_
    have : 0 ≤ (xs.length : ℝ) * (xs.length - 2) * (R - -R) ^ 2 := by
      refine mul_nonneg (mul_nonneg (by linarith) (by linarith)) (by positivity)
    nlinarith
  · rw [Real.sqrt_sq (by linarith)]
    linarith

theorem pair_t (hL : GoodLib L) (hA : AccurateLib u L) {T : Nat → RefDist} {ds : List ℝ} (hne : ds ≠ []) {R : ℝ}
    (hw : ∀ x ∈ ds, -R ≤ x ∧ x ≤ R) (hw' : ∀ x ∈ ds.map L.rnd, -L.rnd R ≤ x ∧ x ≤ L.rnd R)
    (hn : ds.length * u ≤ 1 / 1000000) {c : ℝ} (h0 : 0 < c) (h1 : c < 1) (counts : List (List Nat)) {q : ℝ} (hq0 : 0 ≤ q)
    (hT : 2 ≤ ds.length → IsSymmetric (T (ds.length - 1)) ∧ q = (T (ds.length - 1)).ppf ((1 + c) / 2) ∧
      AccurateQuantile u L ds.length c q) :
    ∃ muR e eR : ℝ, getMeanEB T (finVec ds) (.fin c) (.fin 0) (.fin (-R)) (.fin R) .t counts = .ok (.fin (avg ds), .fin e) ∧
      getMeanEBR L (finVec (ds.map L.rnd)) (.fin c) (.fin 0) (.fin (-L.rnd R)) (.fin (L.rnd R)) .t counts = .ok (.fin muR, .fin eR) ∧
      |eR - e| ≤ (38 * q + 7) * (ds.length * u) * R := by
  have hu := hA.nonneg
  have hg := gradual_of_relError hL.rnd hL.double hu hA.rnd
  have hR0 := sym_nonneg hne hw
  have hA1 := avgAbs_le_sym hne hw
  have hl1 : (1 : ℝ) ≤ ds.length := by exact_mod_cast List.length_pos_iff.2 hne
  have hu1 : u ≤ 1 / 1000000 := by nlinarith
  have hu' : u ≤ ds.length * u := by nlinarith
  have hnu0 : 0 ≤ (ds.length : ℝ) * u := by positivity
  have hRc := rnd_close hA hR0
  have hR'0 : 0 ≤ L.rnd R := rnd_nonneg hA (hu1.trans (by norm_num)) hR0
  have hne' : ds.map L.rnd ≠ [] := by simpa using hne
  have hf : ∀ x ∈ ds, |L.rnd x - x| ≤ u * |x| := fun x _ => hA.rnd x
  obtain ⟨p1, -⟩ := avg_perturb hf
  have huR : 0 ≤ u * R := by positivity
  have hquR : 0 ≤ q * (u * R) := by positivity
  obtain ⟨muR, e', eR, g1, g2, -, g4⟩ := C133_mean_and_EB_t hL hA (T := T) hne' (by simpa using hn) (by linarith : -L.rnd R ≤ L.rnd R) hw'
    h0 h1 le_rfl hg.zero (by linarith) counts hq0 (by simpa using hT)
  rw [abs_neg, max_self, abs_of_nonneg hR'0, List.length_map] at g4
  have hraw : ∃ e0 e0' : Flt ℝ, tEB T (finVec ds) (.fin c) = .ok e0 ∧ tEB T (finVec (ds.map L.rnd)) (.fin c) = .ok e0' ∧
      CloseF ((4 * q + 2) * (u * R)) e0' e0 := by
    rcases Nat.lt_or_ge 1 ds.length with h2 | h2
    · obtain ⟨hs, hqe, -⟩ := hT h2
      obtain ⟨e0, k1, -, k2, -⟩ := C45_t_EB T h2 hs h0 h1
      obtain ⟨e0', k1', -, k2', -⟩ := C45_t_EB T (xs := ds.map L.rnd) (by rw [List.length_map]; exact h2) (by simpa using hs) h0 h1
      refine ⟨_, _, k1, k1', Or.inr ⟨_, _, rfl, rfl, ?_⟩⟩
      rw [k2, k2', List.length_map, ← hqe, ← mul_sub, abs_mul, abs_of_nonneg hq0]
      have hp := stdErr_perturb hu h2 hf
      have hS := stdErr_le_sym h2 hw
      have hd : avgAbs ds / Real.sqrt ds.length ≤ R :=
        (div_le_self (avgAbs_nonneg _) (by rw [Real.one_le_sqrt]; exact hl1)).trans hA1
      have : u * (stdErr ds + 2 * (avgAbs ds / Real.sqrt ds.length)) ≤ u * (4 * R) := mul_le_mul_of_nonneg_left (by linarith) hu
      have := mul_le_mul_of_nonneg_left (hp.trans this) hq0
      linarith
    · refine ⟨.pinf, .pinf, ?_, ?_, Or.inl ⟨rfl, rfl⟩⟩
      · exact ((C45_uninformative T (finVec ds) (.fin c)).2.1 (noNaN_finVec ds) (Or.inl (by simpa [finVec] using h2))).2 ⟨c, rfl, h0, h1⟩
      · exact ((C45_uninformative T (finVec (ds.map L.rnd)) (.fin c)).2.1 (noNaN_finVec _) (Or.inl (by simpa [finVec] using h2))).2 ⟨c, rfl, h0, h1⟩
  obtain ⟨e0, e0', k1, k2, k3⟩ := hraw
  obtain ⟨e, e'', q1, q2, q3⟩ := mean_EB_perturb T hne hne' (lower := .fin (-R)) (upper := .fin R) (lower' := .fin (-L.rnd R)) (upper' := .fin (L.rnd R))
    (by simp [ValidLimits]; linarith)
    (fun x hx => ⟨by simpa using (hw x hx).1, by simpa using (hw x hx).2⟩) (by simp [ValidLimits]; linarith)
    (fun x hx => ⟨by simpa using (hw' x hx).1, by simpa using (hw' x hx).2⟩) (c := .fin c) (method := .t) (counts := counts) k1 k2
    k3 (Or.inl ⟨R, L.rnd R, rfl, rfl, rfl, rfl, by
      have : u * avgAbs ds ≤ u * R := mul_le_mul_of_nonneg_left hA1 hu
      linarith⟩)
  rw [g1, Except.ok.injEq, Prod.mk.injEq] at q2
  obtain ⟨-, rfl⟩ := q2
  rcases q3 with ⟨q, -⟩ | ⟨x, y, hx, rfl, q3⟩
  · cases q
  · cases hx
    refine ⟨muR, y, eR, q1, g2, ?_⟩
    have t1 := abs_sub_le eR e' y
    have t2 : (33 * q + 4) * (ds.length * u) * L.rnd R ≤ (33 * q + 4) * (ds.length * u) * ((1 + u) * R) := by
      have := (abs_le.1 hRc).2
      refine mul_le_mul_of_nonneg_left (by linarith) (by positivity)
    have t3 : (4 * q + 2) * (u * R) ≤ (4 * q + 2) * (ds.length * u * R) :=
      mul_le_mul_of_nonneg_left (mul_le_mul_of_nonneg_right hu' hR0) (by positivity)
    have t4 : (33 * q + 4) * (ds.length * u) * ((1 + u) * R) =
        (33 * q + 4) * (ds.length * u * R) + u * (33 * q + 4) * (ds.length * u * R) := by ring
    have t5 : u * (33 * q + 4) * (ds.length * u * R) ≤ (q + 1) * (ds.length * u * R) := by
      refine mul_le_mul_of_nonneg_right ?_ (by positivity)
      have := mul_le_mul_of_nonneg_right hu1 (by positivity : 0 ≤ 33 * q + 4)
      linarith
    linarith

theorem pair_t_open (hL : GoodLib L) (hA : AccurateLib u L) {T : Nat → RefDist} {ds : List ℝ} (h2 : 2 ≤ ds.length)
    (hn : ds.length * u ≤ 1 / 1000000) {c : ℝ} (h0 : 0 < c) (h1 : c < 1) (counts : List (List Nat))
    (hT : IsSymmetric (T (ds.length - 1))) (hq : AccurateQuantile u L ds.length c ((T (ds.length - 1)).ppf ((1 + c) / 2))) :
    ∃ muR e eR : ℝ, getMeanEB T (finVec ds) (.fin c) (.fin 0) .ninf .pinf .t counts = .ok (.fin (avg ds), .fin e) ∧
      getMeanEBR L (finVec (ds.map L.rnd)) (.fin c) (.fin 0) .ninf .pinf .t counts = .ok (.fin muR, .fin eR) ∧
      |eR - e| ≤ (T (ds.length - 1)).ppf ((1 + c) / 2) * (ds.length * u) * (15 * stdErr ds + 7 * (avgAbs ds / Real.sqrt ds.length)) := by
  have hne : ds ≠ [] := by rintro rfl; simp at h2
  have hu := hA.nonneg
  have hg := gradual_of_relError hL.rnd hL.double hu hA.rnd
  have h2' : (2 : ℝ) ≤ ds.length := by exact_mod_cast h2
  have hu1 : u ≤ 1 / 1000000 := by nlinarith
  have hu' : 2 * u ≤ ds.length * u := mul_le_mul_of_nonneg_right h2' hu
  have hne' : ds.map L.rnd ≠ [] := by simpa using hne
  have hlen : (ds.map L.rnd).length = ds.length := List.length_map _
  have hf : ∀ x ∈ ds, |L.rnd x - x| ≤ u * |x| := fun x _ => hA.rnd x
  obtain ⟨-, p2⟩ := avg_perturb hf
  have hp := stdErr_perturb hu h2 hf
  have hv : ValidLimits (.ninf) (.pinf : Flt ℝ) := by simp [ValidLimits]
  have hw : ∀ xs : List ℝ, Within .ninf .pinf xs := fun xs x hx => by simp
  obtain ⟨muR, e', eR, g1, g2, -, g4⟩ := C133_mean_and_EB_t_open hL hA (T := T) (xs := ds.map L.rnd) (by rw [hlen]; exact h2) (by rwa [hlen]) hv (hw _)
    (Or.inl rfl) h0 h1 le_rfl hg.zero counts (by rwa [hlen]) (by rwa [hlen])
  rw [hlen] at g4
  obtain ⟨e0, k1, -, k2, -⟩ := C45_t_EB T h2 hT h0 h1
  obtain ⟨e0', k1', -, k2', -⟩ := C45_t_EB T (xs := ds.map L.rnd) (by rw [List.length_map]; exact h2) (by simpa using hT) h0 h1
  set q := (T (ds.length - 1)).ppf ((1 + c) / 2) with hqdef
  have hq0 : 0 ≤ q := (hT.ppf_pos (by linarith) (by linarith)).le
  rw [hlen, ← hqdef] at k2'
  set r := Real.sqrt (ds.length : ℝ) with hr
  have hr0 : 0 ≤ r := Real.sqrt_nonneg _
  set A := avgAbs ds / r with hAr
  have hAr0 : 0 ≤ A := div_nonneg (avgAbs_nonneg _) hr0
  have hA' : avgAbs (ds.map L.rnd) / r ≤ (1 + u) * A := by
    rw [hAr, ← mul_div_assoc]
    exact div_le_div_of_nonneg_right p2 hr0
  have hS0 := stdErr_nonneg ds
  obtain ⟨e, e'', q1, q2, q3⟩ := mean_EB_perturb T hne hne' hv (hw _) hv (hw _) (c := .fin c) (method := .t) (counts := counts) k1 k1'
    (d := q * (u * (stdErr ds + 2 * A))) (Or.inr ⟨_, _, rfl, rfl, by
      rw [k2, k2', ← mul_sub, abs_mul, abs_of_nonneg hq0]
      exact mul_le_mul_of_nonneg_left hp hq0⟩) (Or.inr ⟨rfl, rfl, rfl, rfl⟩)
  rw [g1, Except.ok.injEq, Prod.mk.injEq] at q2
  obtain ⟨-, rfl⟩ := q2
  rcases q3 with ⟨q, -⟩ | ⟨x, y, hx, rfl, q3⟩
  · cases q
  · cases hx
    refine ⟨muR, y, eR, q1, g2, ?_⟩
    have t1 := abs_sub_le eR e' y
    have hnu0 : 0 ≤ (ds.length : ℝ) * u := by positivity
    have hS' : stdErr (ds.map L.rnd) ≤ stdErr ds + u * (stdErr ds + 2 * A) := by linarith [(abs_le.1 hp).2]
    have huS : u * stdErr ds ≤ 1 / 1000000 * stdErr ds := mul_le_mul_of_nonneg_right hu1 hS0
    have huA : u * A ≤ 1 / 1000000 * A := mul_le_mul_of_nonneg_right hu1 hAr0
    have t2 : q * (ds.length * u) * (14 * stdErr (ds.map L.rnd) + 5 * (avgAbs (ds.map L.rnd) / r)) ≤
        q * (ds.length * u) * ((14 + 1 / 2) * stdErr ds + 6 * A) := by
      refine mul_le_mul_of_nonneg_left ?_ (by positivity)
      linarith
    have t3 : q * (u * (stdErr ds + 2 * A)) ≤ q * (ds.length * u / 2 * (stdErr ds + 2 * A)) :=
      mul_le_mul_of_nonneg_left (mul_le_mul_of_nonneg_right (by linarith) (by positivity)) hq0
    linarith

end Mlp.Props
