import Verif.Props.ErrorBarRound
import Verif.Props.Coverage
import Verif.Props.LossAccuracyDouble

/-! # C133, continued: accuracy of the means and error bars of `get_mean_and_EB` -/

namespace Mlp.Props
open Mlp.Paper Mlp.PaperR Mlp.PerfR Mlp.BootR Mlp.Boot Mlp.Spec Mlp.Lemmas Mlp.Round

/-- Two floats that are both infinite, or both numbers at a distance of at most `d`. -/
def CloseF (d : ℝ) (x y : Flt ℝ) : Prop := (x = .pinf ∧ y = .pinf) ∨ ∃ a b : ℝ, x = .fin a ∧ y = .fin b ∧ |a - b| ≤ d

theorem CloseF.mono {d d' : ℝ} (h : d ≤ d') {x y : Flt ℝ} (hc : CloseF d x y) : CloseF d' x y := by
  rcases hc with hc | ⟨a, b, e1, e2, e3⟩
  · exact Or.inl hc
  · exact Or.inr ⟨a, b, e1, e2, e3.trans h⟩

/-- Clipping moves close numbers to close numbers. -/
theorem CloseF.clip {d : ℝ} {x y t t' : Flt ℝ} {b : ℝ} (h : CloseF d x y) (ht : CloseF d t t') (h1 : .fin b ≤ t) (h2 : .fin b ≤ t') :
    CloseF d (x.clip (.fin b) t) (y.clip (.fin b) t') := by
  have hinf : ∀ a : ℝ, ¬ ((Flt.pinf : Flt ℝ) < .fin a) := fun a => not_lt.2 (by simp)
  rcases h with ⟨rfl, rfl⟩ | ⟨a, a', rfl, rfl, hd⟩ <;> rcases ht with ⟨rfl, rfl⟩ | ⟨s, s', rfl, rfl, hs⟩
  · left
    rw [Flt.clip_eq (by simp) (by simp) (by simp), if_neg (hinf _), if_neg (lt_irrefl _)]
    exact ⟨rfl, rfl⟩
  · right
    refine ⟨s, s', ?_, ?_, hs⟩ <;>
    · rw [Flt.clip_eq (by simp) (by simp) (by simp), if_neg (hinf _), if_pos]
      exact lt_of_le_of_ne (by simp) (by simp)
  · right
    refine ⟨max b a, max b a', ?_, ?_, ?_⟩
    · rw [Flt.clip_eq (by simp) (by simp) (by simp)]
      simp only [Flt.fin_lt_fin]
      split_ifs with h h'
      · rw [max_eq_left h.le]
      · exact absurd h' (hinf _)
      · rw [max_eq_right (not_lt.1 h)]
    · rw [Flt.clip_eq (by simp) (by simp) (by simp)]
      simp only [Flt.fin_lt_fin]
      split_ifs with h h'
      · rw [max_eq_left h.le]
      · exact absurd h' (hinf _)
      · rw [max_eq_right (not_lt.1 h)]
    · refine (abs_max_sub_max_le_max _ _ _ _).trans (max_le ?_ hd)
      rw [sub_self, abs_zero]
      exact (abs_nonneg _).trans hd
  · right
    rw [Flt.fin_le_fin] at h1 h2
    refine ⟨max b (min a s), max b (min a' s'), by rw [Flt.clip_fin, clip_le_eq h1], by rw [Flt.clip_fin, clip_le_eq h2], ?_⟩
    refine (abs_max_sub_max_le_max _ _ _ _).trans (max_le ?_ ((abs_min_sub_min_le_max _ _ _ _).trans (max_le hd hs)))
    rw [sub_self, abs_zero]
    exact (abs_nonneg _).trans hd

/-- Clipping to limits is a contraction towards every number between them. -/
theorem clip_contract {lower upper : Flt ℝ} (hv : ValidLimits lower upper) {a m : ℝ} (h1 : lower ≤ .fin a) (h2 : .fin a ≤ upper) :
    ∃ m', (Flt.fin m).clip lower upper = .fin m' ∧ |m' - a| ≤ |m - a| ∧ lower ≤ .fin m' ∧ .fin m' ≤ upper := by
  obtain ⟨c1, c2⟩ := clip_between hv m
  suffices ∃ m', (Flt.fin m).clip lower upper = .fin m' ∧ |m' - a| ≤ |m - a| by
    obtain ⟨m', e, h⟩ := this
    rw [e] at c1 c2
    exact ⟨m', e, h, c1, c2⟩
  rw [Flt.clip_eq (by simp) hv.1 hv.2.1]
  split_ifs with k1 k2
  · cases lower with
    | fin l =>
      refine ⟨l, rfl, ?_⟩
      rw [Flt.fin_lt_fin] at k1
      rw [Flt.fin_le_fin] at h1
      rw [abs_of_nonpos (by linarith), abs_of_nonpos (by linarith)]
      linarith
    | ninf => exact absurd k1 (not_lt.2 (by simp))
    | pinf => simp at h1
    | nan => exact absurd rfl hv.1
  · cases upper with
    | fin h =>
      refine ⟨h, rfl, ?_⟩
      rw [Flt.fin_lt_fin] at k2
      rw [Flt.fin_le_fin] at h2
      rw [abs_of_nonneg (by linarith), abs_of_nonneg (by linarith)]
      linarith
    | ninf => simp at h2
    | pinf => exact absurd k2 (not_lt.2 (by simp))
    | nan => exact absurd rfl hv.2.1
  · exact ⟨m, rfl, le_rfl⟩

/-- The error bar before clipping. -/
noncomputable def rawBar (T : Nat → RefDist) (x : List (Flt ℝ)) (c lower upper : Flt ℝ) (method : EBMethod) (counts : List (List Nat)) :
    Py (Flt ℝ) :=
  match method with
  | .t => tEB T x c
  | .bernstein => bernsteinEB x lower upper c
  | .boot => bootEB x c defaultNBoot counts
  | .other => .error .assertion

/-- The error bar before clipping, in floating point arithmetic. -/
noncomputable def rawBarR (L : Lib ℝ) (x : List (Flt ℝ)) (c lower upper : Flt ℝ) (method : EBMethod) (counts : List (List Nat)) :
    Py (Flt ℝ) :=
  match method with
  | .t => tEBR L x c
  | .bernstein => bernsteinEBR L x lower upper c
  | .boot => bootEBR L x c defaultNBoot counts
  | .other => .error .assertion

variable {L : Lib ℝ} {u : ℝ}

theorem mean_EB_close (hL : GoodLib L) (hA : AccurateLib u L) (T : Nat → RefDist) {xs : List ℝ} (hne : xs ≠ [])
    (hn : xs.length * u ≤ 1 / 1000000) {lower upper : Flt ℝ} (hv : ValidLimits lower upper) (hw : Within lower upper xs)
    {c : Flt ℝ} {method : EBMethod} {counts : List (List Nat)} {b : ℝ} (hb : 0 ≤ b) (hbr : L.rnd b = b)
    (h3 : .fin (2 * b) ≤ upper.sub lower) {e0 e0R : Flt ℝ}
    (he : rawBar T (finVec xs) c lower upper method counts = .ok e0)
    (heR : rawBarR L (finVec xs) c lower upper method counts = .ok e0R) {d : ℝ} (hc : CloseF d e0R e0)
    (hd : ∀ lo hi : ℝ, lower = .fin lo → upper = .fin hi → 4 * (xs.length * u) * max |lo| |hi| ≤ d) :
    ∃ (muR : ℝ) (e eR : Flt ℝ), getMeanEB T (finVec xs) c (.fin b) lower upper method counts = .ok (.fin (avg xs), e) ∧
      getMeanEBR L (finVec xs) c (.fin b) lower upper method counts = .ok (.fin muR, eR) ∧
      (Flt.fin (meanR L xs)).clip lower upper = .fin muR ∧
      |muR - avg xs| ≤ 2 * (xs.length * u) * avgAbs xs ∧ CloseF d eR e ∧
      (((∃ a : ℝ, e0 = .fin a) ∨ ∃ l h : ℝ, lower = .fin l ∧ upper = .fin h) → ∃ a : ℝ, e = .fin a) := by
  have hu := hA.nonneg
  have hg := gradual_of_relError hL.rnd hL.double hu hA.rnd
  have h3' : .fin (2 * b) ≤ rF L.rnd (upper.sub lower) := by
    cases h : upper.sub lower with
    | fin r =>
      rw [h, Flt.fin_le_fin] at h3
      have := hL.rnd.mono h3
      rw [hg.double_float _ hbr] at this
      simpa [rF] using this
    | _ => rw [h] at h3; simpa [rF] using h3
  obtain ⟨ha1, ha2⟩ := avg_mem hne hw
  obtain ⟨muR, hmu, hcon, m1, m2⟩ := clip_contract hv (m := meanR L xs) ha1 ha2
  have hmean := C111_mean hu hA.rnd hL.sum hne hn
  have hmu' : |muR - avg xs| ≤ 2 * (xs.length * u) * avgAbs xs := hcon.trans hmean
  obtain ⟨q1, q2, q3⟩ := clipEBR_ok hL.toSignLib hg e0R (fun _ _ => trivial) (fun _ _ => trivial) hv m1 m2 hb hbr h3'
  have qe := clipEB_value e0 hv hb ha1 ha2 h3
  have hcl := clipChkR_mean hg hL.sum hne (fun _ _ => trivial) hn hv hw
  have hin := (within_finVec hv.2.1 xs).2 hw
  refine ⟨muR, e0.clip (.fin b) (Flt.fmax (upper.sub (.fin (avg xs))) ((Flt.fin (avg xs)).sub lower)),
    e0R.clip (.fin b) (trivialR L (.fin muR) lower upper), ?_, ?_, hmu, hmu', ?_, ?_⟩
  rotate_left
  · unfold getMeanEBR
    rw [pyAssert_bind, if_pos hin]
    change (rawBarR L (finVec xs) c lower upper method counts >>= _) = _
    rw [heR, ok_bind, meanFR_finVec hne, hcl, ok_bind, hmu, q1, ok_bind]
    rfl
  rotate_left 2
  · unfold getMeanEB
    rw [pyAssert_bind, if_pos hin]
    change (rawBar T (finVec xs) c lower upper method counts >>= _) = _
    rw [he, ok_bind, mean_finVec hne, clipChk_id (by simp) hv.1 hv.2.1 ha1 ha2, ok_bind, qe, ok_bind]
    rfl
  · refine CloseF.clip hc ?_ q3 (trivial_facts hv ha1 ha2 (not_lt.2 h3)).2
    unfold trivialR
    by_cases hf : ∃ l h : ℝ, lower = .fin l ∧ upper = .fin h
    · obtain ⟨l, h, rfl, rfl⟩ := hf
      right
      refine ⟨max (L.rnd (h - muR)) (L.rnd (muR - l)), max (h - avg xs) (avg xs - l), by simp only [Flt.sub_fin, rF, Flt.fmax_fin],
        by simp only [Flt.sub_fin, Flt.fmax_fin], (abs_max_sub_max_le_max _ _ _ _).trans (max_le ?_ ?_)⟩
      all_goals
        have hd' := hd l h rfl rfl
        have hB := C111_scale hne (l := l) (h := h) fun x hx => ⟨by simpa using (hw x hx).1, by simpa using (hw x hx).2⟩
        rw [Flt.fin_le_fin] at m1 m2
        have hl1 : (1 : ℝ) ≤ xs.length := by exact_mod_cast List.length_pos_iff.2 hne
        have hB0 : 0 ≤ max |l| |h| := (abs_nonneg l).trans (le_max_left _ _)
        have hR : h - l ≤ 2 * max |l| |h| := by
          have := neg_abs_le l
          have := le_abs_self h
          have := le_max_left |l| |h|
          have := le_max_right |l| |h|
          linarith
        have hA0 : 2 * (xs.length * u) * avgAbs xs ≤ 2 * (xs.length * u) * max |l| |h| :=
          mul_le_mul_of_nonneg_left hB (by positivity)
        have hU : u * (2 * max |l| |h|) ≤ 2 * (xs.length * u) * max |l| |h| := by
          have : u * 1 ≤ u * xs.length := mul_le_mul_of_nonneg_left hl1 hu
          nlinarith
      · have r1 := hA.rnd (h - muR)
        have r2 := abs_sub_le (L.rnd (h - muR)) (h - muR) (h - avg xs)
        have e1 : h - muR - (h - avg xs) = -(muR - avg xs) := by ring
        rw [e1, abs_neg] at r2
        have r3 : u * |h - muR| ≤ u * (2 * max |l| |h|) := mul_le_mul_of_nonneg_left (by rw [abs_of_nonneg (by linarith)]; linarith) hu
        linarith
      · have r1 := hA.rnd (muR - l)
        have r2 := abs_sub_le (L.rnd (muR - l)) (muR - l) (avg xs - l)
        have e1 : muR - l - (avg xs - l) = muR - avg xs := by ring
        rw [e1] at r2
        have r3 : u * |muR - l| ≤ u * (2 * max |l| |h|) := mul_le_mul_of_nonneg_left (by rw [abs_of_nonneg (by linarith)]; linarith) hu
        linarith
    · left
      obtain ⟨v1, v2, v3, v4, v5⟩ := hv
      cases lower <;> cases upper <;> simp_all [Flt.sub, Flt.add, Flt.neg, Flt.fmax, rF]
  · rintro (⟨a, rfl⟩ | ⟨l, h, rfl, rfl⟩)
    · rw [Flt.clip_eq (by simp) (by simp) (trivial_facts hv ha1 ha2 (not_lt.2 h3)).1]
      split_ifs with k1 k2
      · exact ⟨b, rfl⟩
      · have k3 := (trivial_facts hv ha1 ha2 (not_lt.2 h3)).2
        cases hT : Flt.fmax (upper.sub (.fin (avg xs))) ((Flt.fin (avg xs)).sub lower) with
        | fin t => exact ⟨t, rfl⟩
        | pinf => rw [hT] at k2; exact absurd k2 (not_lt.2 (by simp))
        | ninf => rw [hT] at k3; simp at k3
        | nan => rw [hT] at k2; exact absurd k2 (not_lt.2 (by simp))
      · exact ⟨a, rfl⟩
    · have k3 : Flt.fmax ((Flt.fin h).sub (.fin (avg xs))) ((Flt.fin (avg xs)).sub (.fin l)) = .fin (max (h - avg xs) (avg xs - l)) := by
        simp only [Flt.sub_fin, Flt.fmax_fin]
      rw [k3]
      rcases hc with ⟨-, rfl⟩ | ⟨-, a, -, rfl, -⟩
      · refine ⟨max (h - avg xs) (avg xs - l), ?_⟩
        rw [Flt.clip_eq (by simp) (by simp) (by simp), if_neg (not_lt.2 (by simp)), if_pos]
        exact lt_of_le_of_ne (by simp) (by simp)
      · exact ⟨_, Flt.clip_fin _ _ _⟩

/-- The squared deviations of numbers within limits. -/
theorem sqDev_le_range {xs : List ℝ} (hne : xs ≠ []) {l h : ℝ} (hw : ∀ x ∈ xs, l ≤ x ∧ x ≤ h) : sqDev xs ≤ xs.length * (h - l) ^ 2 := by
  obtain ⟨ha1, ha2⟩ := avg_mem hne (lower := .fin l) (upper := .fin h) fun x hx => ⟨by simpa using (hw x hx).1, by simpa using (hw x hx).2⟩
  rw [Flt.fin_le_fin] at ha1 ha2
  unfold sqDev
  have := List.sum_le_card_nsmul (xs.map fun x => (x - avg xs) ^ 2) ((h - l) ^ 2) fun v hv => by
    obtain ⟨x, hx, rfl⟩ := List.mem_map.1 hv
    obtain ⟨h1, h2⟩ := hw x hx
    rw [sq_le_sq]
    rw [abs_of_nonneg (by linarith : 0 ≤ h - l), abs_le]
    constructor <;> linarith
  simpa using this

theorem uninformative_short {xs : List ℝ} (h : xs.length ≤ 1) : uninformative (finVec xs) = true := by
  unfold uninformative finVec
  simp [h]

theorem range_le_scale (l h : ℝ) : h - l ≤ 2 * max |l| |h| := by
  have := neg_abs_le l
  have := le_abs_self h
  have := le_max_left |l| |h|
  have := le_max_right |l| |h|
  linarith

/-- **C133, `get_mean_and_EB` with `'bernstein'`.**  The computed mean and error bar of `n` numbers between finite limits `l` and `h` are
those of exact arithmetic up to `2 n u` and `130 n u log (3 / (1 - c))` times the larger of `|l|` and `|h|`. -/
theorem C133_mean_and_EB_bernstein (hL : GoodLib L) (hA : AccurateLib u L) (T : Nat → RefDist) {xs : List ℝ} (hne : xs ≠ [])
    (hn : xs.length * u ≤ 1 / 1000000) {l h : ℝ} (hlh : l ≤ h) (hw : ∀ x ∈ xs, l ≤ x ∧ x ≤ h) {c : ℝ} (h0 : 0 < c) (h1 : c < 1)
    {b : ℝ} (hb : 0 ≤ b) (hbr : L.rnd b = b) (h3 : 2 * b ≤ h - l) (counts : List (List Nat)) :
    ∃ muR e eR : ℝ,
      getMeanEB T (finVec xs) (.fin c) (.fin b) (.fin l) (.fin h) .bernstein counts = .ok (.fin (avg xs), .fin e) ∧
      getMeanEBR L (finVec xs) (.fin c) (.fin b) (.fin l) (.fin h) .bernstein counts = .ok (.fin muR, .fin eR) ∧
      |muR - avg xs| ≤ 2 * (xs.length * u) * max |l| |h| ∧
      |eR - e| ≤ 130 * (xs.length * u) * (Real.log (3 / (1 - c)) * max |l| |h|) := by
  have hu := hA.nonneg
  have hv : ValidLimits (.fin l) (.fin h : Flt ℝ) := by simp [ValidLimits, hlh]
  have hwi : Within (.fin l) (.fin h) xs := fun x hx => ⟨by simpa using (hw x hx).1, by simpa using (hw x hx).2⟩
  have hA1 := C111_scale hne hw
  have hR := range_le_scale l h
  have hl1 : (1 : ℝ) ≤ xs.length := by exact_mod_cast List.length_pos_iff.2 hne
  have hu1 : u ≤ 1 / 1000000 := by nlinarith
  have ha1 : 1 < Real.log (3 / (1 - c)) := one_lt_log_three.trans (log_pos_conf h0 h1).1
  set B := max |l| |h| with hB
  set a := Real.log (3 / (1 - c)) with ha
  have hB0 : 0 ≤ B := (abs_nonneg l).trans (le_max_left _ _)
  have hu' : u ≤ xs.length * u := by nlinarith
  have hnu0 : 0 ≤ (xs.length : ℝ) * u := by positivity
  have hBa : B ≤ a * B := by nlinarith
  have hraw : ∃ e0 e0R : ℝ, bernsteinEB (finVec xs) (.fin l) (.fin h) (.fin c) = .ok (.fin e0) ∧
      bernsteinEBR L (finVec xs) (.fin l) (.fin h) (.fin c) = .ok (.fin e0R) ∧ |e0R - e0| ≤ 130 * (xs.length * u) * (a * B) := by
    rcases Nat.lt_or_ge 1 xs.length with h2 | h2
    · obtain ⟨e0, e0R, k1, k2, -, k3⟩ := C133_bernstein_EB hA hL.sum h2 hn hlh hw h0 h1
      refine ⟨e0, e0R, k1, k2, k3.trans ?_⟩
      have h2' : (2 : ℝ) ≤ xs.length := by exact_mod_cast h2
      rw [(C47_bernstein_EB h2 hlh hw h0 h1).1] at k1
      simp only [Except.ok.injEq, Flt.fin.injEq] at k1
      rw [← ha] at k1 ⊢
      have hrt : Real.sqrt (2 * a / xs.length) ≤ a := by
        rw [Real.sqrt_le_left (by linarith), div_le_iff₀ (by linarith)]
        nlinarith
      have hσ : Real.sqrt (sqDev xs / xs.length) ≤ 2 * B := by
        refine le_trans (Real.sqrt_le_sqrt (y := (h - l) ^ 2) ?_) ?_
        · rw [div_le_iff₀ (by linarith), mul_comm]
          exact sqDev_le_range hne hw
        · rw [Real.sqrt_sq (by linarith)]
          exact hR
      have he0 : e0 ≤ 5 * (a * B) := by
        rw [← k1]
        unfold bernWidth
        have t1 : Real.sqrt (sqDev xs / xs.length) * Real.sqrt (2 * a / xs.length) ≤ 2 * B * a :=
          mul_le_mul hσ hrt (Real.sqrt_nonneg _) (by linarith)
        have t2 : 3 * a * (h - l) / xs.length ≤ 3 * (a * B) := by
          rw [div_le_iff₀ (by linarith)]
          have : a * (h - l) ≤ a * (2 * B) := mul_le_mul_of_nonneg_left hR (by linarith)
          have : a * B * 2 ≤ a * B * xs.length := mul_le_mul_of_nonneg_left h2' (by positivity)
          linarith
        linarith
      have t3 : 25 * (xs.length * u) * e0 ≤ 25 * (xs.length * u) * (5 * (a * B)) := mul_le_mul_of_nonneg_left he0 (by positivity)
      have t4 : 5 * (xs.length * u) * (avgAbs xs * Real.sqrt (2 * a / xs.length)) ≤ 5 * (xs.length * u) * (B * a) :=
        mul_le_mul_of_nonneg_left (mul_le_mul hA1 hrt (Real.sqrt_nonneg _) hB0) (by positivity)
      linarith
    · have hEB : bernsteinEB (finVec xs) (.fin l) (.fin h) (.fin c) = .ok (.fin (h - l)) := by
        rw [((C47_degenerate hv (noNaN_finVec _) (fun v hv' => by
          unfold finVec at hv'
          obtain ⟨x, hx, rfl⟩ := List.mem_map.1 hv'
          exact ⟨by simpa using (hw x hx).1, by simpa using (hw x hx).2⟩)
          h0 h1).1 (Or.inl (by simpa [finVec] using h2))).2]
        simp
      refine ⟨h - l, L.rnd (h - l), hEB, ?_, ?_⟩
      · unfold bernsteinEBR
        have hc : confOkR (Flt.fin c) = true := by simp [confOkR, h0, h1]
        have hsub : rF L.rnd ((Flt.fin h).sub (Flt.fin l)) = .fin (L.rnd (h - l)) := rfl
        rw [pyAssert_bind, if_pos ((noNaN_any _).2 (noNaN_finVec xs)), hsub, pyAssert_bind,
          if_pos (by simpa using rnd_nonneg hA (hu1.trans (by norm_num)) (by linarith : 0 ≤ h - l)),
          pyAssert_bind, if_pos ((within_finVec (by simp) xs).2 hwi), pyAssert_bind, if_pos hc, if_pos (uninformative_short h2)]
        rfl
      · refine (hA.rnd _).trans ?_
        rw [abs_of_nonneg (by linarith : 0 ≤ h - l)]
        have t1 : u * (h - l) ≤ xs.length * u * (2 * B) := mul_le_mul hu' hR (by linarith) hnu0
        have t2 : xs.length * u * (2 * B) ≤ xs.length * u * (2 * (a * B)) := mul_le_mul_of_nonneg_left (by linarith) hnu0
        have t3 : 0 ≤ xs.length * u * (a * B) := by positivity
        linarith
  obtain ⟨e0, e0R, k1, k2, k3⟩ := hraw
  obtain ⟨muR, e, eR, g1, g2, -, g3, g4, g5⟩ := mean_EB_close hL hA T hne hn hv hwi (c := .fin c) (method := .bernstein) (counts := counts)
    hb hbr (by simpa using h3) k1 k2 (Or.inr ⟨_, _, rfl, rfl, k3⟩) (fun lo hi e1 e2 => by
      cases e1; cases e2
      have t2 : xs.length * u * B ≤ xs.length * u * (a * B) := mul_le_mul_of_nonneg_left hBa hnu0
      have t3 : 0 ≤ xs.length * u * (a * B) := by positivity
      linarith)
  obtain ⟨e', rfl⟩ := g5 (Or.inl ⟨_, rfl⟩)
  rcases g4 with ⟨-, g⟩ | ⟨eR', e'', rfl, g, g4⟩
  · cases g
  · cases g
    exact ⟨muR, _, _, g1, g2, g3.trans (mul_le_mul_of_nonneg_left hA1 (by positivity)), g4⟩

theorem tEBR_short {xs : List ℝ} (h : xs.length ≤ 1) {c : ℝ} (h0 : 0 < c) (h1 : c < 1) : tEBR L (finVec xs) (.fin c) = .ok .pinf := by
  unfold tEBR
  have hc : confOkR (Flt.fin c) = true := by simp [confOkR, h0, h1]
  rw [pyAssert_bind, if_pos ((noNaN_any _).2 (noNaN_finVec xs)), pyAssert_bind, if_pos hc, if_pos (uninformative_short h)]
  rfl

/-- **C133, `get_mean_and_EB` with `'t'` and finite limits.**  With `q` the quantile of the t distribution, the computed mean and error
bar are those of exact arithmetic up to `2 n u` and `(33 q + 4) n u` times the larger of `|l|` and `|h|`. -/
theorem C133_mean_and_EB_t (hL : GoodLib L) (hA : AccurateLib u L) {T : Nat → RefDist} {xs : List ℝ} (hne : xs ≠ [])
    (hn : xs.length * u ≤ 1 / 1000000) {l h : ℝ} (hlh : l ≤ h) (hw : ∀ x ∈ xs, l ≤ x ∧ x ≤ h) {c : ℝ} (h0 : 0 < c) (h1 : c < 1)
    {b : ℝ} (hb : 0 ≤ b) (hbr : L.rnd b = b) (h3 : 2 * b ≤ h - l) (counts : List (List Nat)) {q : ℝ} (hq0 : 0 ≤ q)
    (hT : 2 ≤ xs.length → IsSymmetric (T (xs.length - 1)) ∧ q = (T (xs.length - 1)).ppf ((1 + c) / 2) ∧
      AccurateQuantile u L xs.length c q) :
    ∃ muR e eR : ℝ,
      getMeanEB T (finVec xs) (.fin c) (.fin b) (.fin l) (.fin h) .t counts = .ok (.fin (avg xs), .fin e) ∧
      getMeanEBR L (finVec xs) (.fin c) (.fin b) (.fin l) (.fin h) .t counts = .ok (.fin muR, .fin eR) ∧
      |muR - avg xs| ≤ 2 * (xs.length * u) * max |l| |h| ∧
      |eR - e| ≤ (33 * q + 4) * (xs.length * u) * max |l| |h| := by
  have hu := hA.nonneg
  have hv : ValidLimits (.fin l) (.fin h : Flt ℝ) := by simp [ValidLimits, hlh]
  have hwi : Within (.fin l) (.fin h) xs := fun x hx => ⟨by simpa using (hw x hx).1, by simpa using (hw x hx).2⟩
  have hA1 := C111_scale hne hw
  have hR := range_le_scale l h
  set B := max |l| |h| with hB
  have hB0 : 0 ≤ B := (abs_nonneg l).trans (le_max_left _ _)
  have hnu0 : 0 ≤ (xs.length : ℝ) * u := by positivity
  have hraw : ∃ e0 e0R : Flt ℝ, tEB T (finVec xs) (.fin c) = .ok e0 ∧ tEBR L (finVec xs) (.fin c) = .ok e0R ∧
      CloseF ((33 * q + 4) * (xs.length * u) * B) e0R e0 := by
    rcases Nat.lt_or_ge 1 xs.length with h2 | h2
    · obtain ⟨hs, rfl, hqa⟩ := hT h2
      obtain ⟨e0, e0R, k1, k2, -, k3⟩ := C133_t_EB hA hL.sum h2 hn hs h0 h1 hqa
      refine ⟨_, _, k1, k2, Or.inr ⟨_, _, rfl, rfl, k3.trans ?_⟩⟩
      obtain ⟨e0', k1', -, k4, -⟩ := C45_t_EB T h2 hs h0 h1
      rw [k1'] at k1
      simp only [Except.ok.injEq, Flt.fin.injEq] at k1
      rw [← k1, k4]
      have h2' : (2 : ℝ) ≤ xs.length := by exact_mod_cast h2
      set q := (T (xs.length - 1)).ppf ((1 + c) / 2) with hq
      have hse : stdErr xs ≤ 2 * B := by
        unfold stdErr
        rw [← Real.sqrt_div (div_nonneg (sqDev_nonneg xs) (by linarith))]
        refine le_trans (Real.sqrt_le_sqrt (y := (h - l) ^ 2) ?_) ?_
        · rw [div_div, div_le_iff₀ (by nlinarith)]
          refine (sqDev_le_range hne hw).trans ?_
          have : 0 ≤ (xs.length : ℝ) * (xs.length - 2) * (h - l) ^ 2 := by
            refine mul_nonneg (mul_nonneg (by linarith) (by linarith)) (by positivity)
          nlinarith
        · rw [Real.sqrt_sq (by linarith)]
          exact hR
      have hdiv : q / Real.sqrt xs.length ≤ q := by
        refine div_le_self hq0 ?_
        rw [Real.one_le_sqrt]
        linarith
      have t1 : q * stdErr xs ≤ q * (2 * B) := mul_le_mul_of_nonneg_left hse hq0
      have t2 : 14 * (xs.length * u) * (q * stdErr xs) ≤ 14 * (xs.length * u) * (q * (2 * B)) := mul_le_mul_of_nonneg_left t1 (by positivity)
      have t3 : 5 * (xs.length * u) * (avgAbs xs * (q / Real.sqrt xs.length)) ≤ 5 * (xs.length * u) * (B * q) :=
        mul_le_mul_of_nonneg_left (mul_le_mul hA1 hdiv (by positivity) hB0) (by positivity)
      have t4 : 0 ≤ xs.length * u * B := by positivity
      linarith
    · refine ⟨.pinf, .pinf, ?_, tEBR_short h2 h0 h1, Or.inl ⟨rfl, rfl⟩⟩
      exact ((C45_uninformative T (finVec xs) (.fin c)).2.1 (noNaN_finVec xs) (Or.inl (by simpa [finVec] using h2))).2 ⟨c, rfl, h0, h1⟩
  obtain ⟨e0, e0R, k1, k2, k3⟩ := hraw
  obtain ⟨muR, e, eR, g1, g2, -, g3, g4, g5⟩ := mean_EB_close hL hA T hne hn hv hwi (c := .fin c) (method := .t) (counts := counts)
    hb hbr (by simpa using h3) k1 k2 k3 (fun lo hi e1 e2 => by
      cases e1; cases e2
      have t3 : 0 ≤ q * (xs.length * u * B) := by positivity
      linarith)
  obtain ⟨e', rfl⟩ := g5 (Or.inr ⟨_, _, rfl, rfl⟩)
  rcases g4 with ⟨-, g⟩ | ⟨eR', e'', rfl, g, g4⟩
  · cases g
  · cases g
    exact ⟨muR, _, _, g1, g2, g3.trans (mul_le_mul_of_nonneg_left hA1 (by positivity)), g4⟩

/-- **C133, `get_mean_and_EB` with `'t'` and an infinite limit.**  The errors are those of the mean and of `t_EB`. -/
theorem C133_mean_and_EB_t_open (hL : GoodLib L) (hA : AccurateLib u L) {T : Nat → RefDist} {xs : List ℝ} (h2 : 2 ≤ xs.length)
    (hn : xs.length * u ≤ 1 / 1000000) {lower upper : Flt ℝ} (hv : ValidLimits lower upper) (hw : Within lower upper xs)
    (hinf : lower = .ninf ∨ upper = .pinf) {c : ℝ} (h0 : 0 < c) (h1 : c < 1)
    {b : ℝ} (hb : 0 ≤ b) (hbr : L.rnd b = b) (counts : List (List Nat)) (hT : IsSymmetric (T (xs.length - 1)))
    (hq : AccurateQuantile u L xs.length c ((T (xs.length - 1)).ppf ((1 + c) / 2))) :
    ∃ muR e eR : ℝ,
      getMeanEB T (finVec xs) (.fin c) (.fin b) lower upper .t counts = .ok (.fin (avg xs), .fin e) ∧
      getMeanEBR L (finVec xs) (.fin c) (.fin b) lower upper .t counts = .ok (.fin muR, .fin eR) ∧
      |muR - avg xs| ≤ 2 * (xs.length * u) * avgAbs xs ∧
      |eR - e| ≤ (T (xs.length - 1)).ppf ((1 + c) / 2) * (xs.length * u) *
        (14 * stdErr xs + 5 * (avgAbs xs / Real.sqrt xs.length)) := by
  have hne : xs ≠ [] := by rintro rfl; simp at h2
  obtain ⟨e0, e0R, k1, k2, -, k3⟩ := C133_t_EB hA hL.sum h2 hn hT h0 h1 hq
  obtain ⟨e0', k1', -, k4, -⟩ := C45_t_EB T h2 hT h0 h1
  rw [k1'] at k1
  simp only [Except.ok.injEq, Flt.fin.injEq] at k1
  subst k1
  have hsub : upper.sub lower = .pinf := by
    obtain ⟨v1, v2, v3, v4, v5⟩ := hv
    cases lower <;> cases upper <;> simp_all [Flt.sub, Flt.add, Flt.neg]
  obtain ⟨muR, e, eR, g1, g2, -, g3, g4, g5⟩ := mean_EB_close hL hA T hne hn hv hw (c := .fin c) (method := .t) (counts := counts)
    hb hbr (by rw [hsub]; simp) k1' k2 (Or.inr ⟨_, _, rfl, rfl, k3⟩) (fun lo hi e1 e2 => by
      subst e1 e2
      simp at hinf)
  obtain ⟨e', rfl⟩ := g5 (Or.inl ⟨_, rfl⟩)
  rcases g4 with ⟨-, g⟩ | ⟨eR', e'', rfl, g, g4⟩
  · cases g
  · cases g
    refine ⟨muR, _, _, g1, g2, g3, g4.trans (le_of_eq ?_)⟩
    rw [k4]
    ring

end Mlp.Props
