import Verif.Model.RegrIeee
import Verif.Spec.RegrIeee
import Verif.Props.IeeeNearest
import Verif.Props.IeeeGradual
import Verif.Props.RegrRound

/-!
# Property C149: losses of regressors in IEEE 754 double precision
-/

namespace Mlp.Props
open Mlp.Util Mlp.Spec Mlp.Regr Mlp.LossR Mlp.PaperR Mlp.PerfR Mlp.Round Mlp.Lemmas Mlp.RegrI

variable {L : Lib ℝ}

/-! ## Rounding -/

theorem ieee64_roundsTo (x : ℝ) : RoundsTo x (ieee64 x) := by
  obtain ⟨h1, h2, h3⟩ := C127_overflow (x := x)
  cases h : ieee64 x with
  | nan => exact absurd h h3
  | pinf => exact Or.inl ⟨rfl, h1.1 h⟩
  | ninf => exact Or.inr (Or.inl ⟨rfl, h2.1 h⟩)
  | fin w =>
    refine Or.inr (Or.inr ⟨w, rfl, ?_, C127_nearest h⟩)
    rw [abs_lt]
    constructor
    · by_contra hc
      rw [h2.2 (not_lt.1 hc)] at h
      cases h
    · by_contra hc
      rw [h1.2 (not_lt.1 hc)] at h
      cases h

theorem big_pos : (0 : ℝ) < 2 ^ 1024 - 2 ^ 970 := sub_pos.2 (pow_lt_pow_right₀ (by norm_num) (by norm_num))

theorem ieee64_ne_nan (x : ℝ) : ieee64 x ≠ .nan := (C127_overflow (x := x)).2.2

theorem ieee64_mono {x y : ℝ} (h : x ≤ y) : ieee64 x ≤ ieee64 y := by
  have hB := big_pos
  rcases ieee64_roundsTo x with ⟨e, hx⟩ | ⟨e, hx⟩ | ⟨w, e, hx, hw, hn⟩
  · rw [e, (C127_overflow (x := y)).1.2 (hx.trans h)]
  · rw [e]; exact Flt.ninf_le _
  · rcases ieee64_roundsTo y with ⟨e', hy⟩ | ⟨e', hy⟩ | ⟨w', e', hy, hw', hn'⟩
    · rw [e, e']; exact Flt.fin_le_pinf _
    · have := (abs_lt.1 hx).1
      linarith
    · rw [e, e', Flt.fin_le_fin]
      by_contra hc
      have hc := not_le.1 hc
      have a1 := (hn w' hw').1
      have a2 := (hn' w hw).1
      have b1 : w' + w ≤ 2 * x := by
        by_contra hb
        rw [not_le] at hb
        have : |x - w'| < |x - w| := by
          rw [abs_sub_comm x w, abs_of_nonneg (show 0 ≤ w - x by linarith), abs_lt]
          constructor <;> linarith
        linarith
      have b2 : 2 * y ≤ w' + w := by
        by_contra hb
        rw [not_le] at hb
        have : |y - w| < |y - w'| := by
          rw [abs_of_nonneg (show 0 ≤ y - w' by linarith), abs_lt]
          constructor <;> linarith
        linarith
      have : x = y := by linarith
      rw [this, e', Flt.fin.injEq] at e
      linarith

theorem ieee64_neg (x : ℝ) : ieee64 (-x) = (ieee64 x).neg := by
  have hB := big_pos
  rcases ieee64_roundsTo x with ⟨e, hx⟩ | ⟨e, hx⟩ | ⟨w, e, -⟩
  · rw [e]; exact (C127_overflow (x := -x)).2.1.2 (by linarith)
  · rw [e]; exact (C127_overflow (x := -x)).1.2 (by linarith)
  · rw [e]
    obtain ⟨h1, h2⟩ := ieee64_fin_iff.1 e
    exact ieee64_fin_iff.2 ⟨by rw [ieeeRound_neg, h1], by rwa [abs_neg]⟩

theorem ieee64_double {x : ℝ} (h : IsBinary64 x) : ieee64 x = .fin x := C127_doubles.2 h

theorem ieee64_zero : ieee64 (0 : ℝ) = .fin 0 := ieee64_fin_iff.2 ⟨ieeeRound_zero, by simp⟩

theorem isBinary64_pow (e : Int) (h1 : -1074 ≤ e) (h2 : e ≤ 971) : IsBinary64 ((2 : ℝ) ^ e) := ⟨1, e, by norm_num, h1, h2, by simp⟩

theorem isBinary64_zero : IsBinary64 (0 : ℝ) := ⟨0, 0, by norm_num, by norm_num, by norm_num, by simp⟩

theorem ieee64_nonneg {x : ℝ} (h : 0 ≤ x) : .fin 0 ≤ ieee64 x := ieee64_zero ▸ ieee64_mono h

/-- The absolute value of a result. -/
theorem fabs_ieee64 (x : ℝ) : Paper.fabs (ieee64 x) = ieee64 |x| := by
  rcases le_total 0 x with h | h
  · rw [abs_of_nonneg h]
    have := ieee64_nonneg h
    cases e : ieee64 x with
    | fin w => rw [e, Flt.fin_le_fin] at this; simp only [Paper.fabs, abs_of_nonneg this]
    | pinf => rfl
    | nan => rfl
    | ninf => rw [e] at this; simp at this
  · rw [abs_of_nonpos h, ieee64_neg]
    have := ieee64_nonneg (x := -x) (by linarith)
    rw [ieee64_neg] at this
    cases e : ieee64 x with
    | fin w =>
      rw [e] at this
      simp only [Flt.neg, Flt.fin_le_fin] at this
      simp only [Paper.fabs, Flt.neg, abs_of_nonpos (show w ≤ 0 by linarith)]
    | pinf => rw [e] at this; simp [Flt.neg] at this
    | nan => rfl
    | ninf => rfl

theorem isBinary64_grid {x : ℝ} (h : IsBinary64 x) : ∃ m : Int, x * 2 ^ 1074 = m := (C127_doubles.2 h).facts.2.1

/-- A difference of doubles that is not 0 does not become 0. -/
theorem ieee64_sub_zero {a m : ℝ} (ha : IsBinary64 a) (hm : IsBinary64 m) : ieee64 |a - m| = .fin 0 ↔ a = m := by
  constructor
  · intro h
    by_contra hne
    obtain ⟨k, hk⟩ := isBinary64_grid ha
    obtain ⟨j, hj⟩ := isBinary64_grid hm
    have h0 : k - j ≠ 0 := by
      intro h0
      apply hne
      have : (k : ℝ) = j := by exact_mod_cast sub_eq_zero.1 h0
      rw [this, ← hj] at hk
      exact mul_right_cancel₀ (by positivity) hk
    have h1 : (1 : ℝ) ≤ |((k - j : Int) : ℝ)| := by exact_mod_cast Int.one_le_abs h0
    have h2 : (2 : ℝ) ^ (-1074 : Int) ≤ |a - m| := by
      rw [zpow_neg, ← one_div, div_le_iff₀ (by positivity)]
      have e : ((k - j : Int) : ℝ) = (a - m) * 2 ^ 1074 := by push_cast; rw [← hk, ← hj]; ring
      rw [e, abs_mul, abs_of_pos (a := (2 : ℝ) ^ 1074) (by positivity)] at h1
      exact_mod_cast h1
    have h3 := ieee64_mono h2
    rw [ieee64_double (isBinary64_pow _ (by norm_num) (by norm_num)), h, Flt.fin_le_fin] at h3
    have : (0 : ℝ) < 2 ^ (-1074 : Int) := by positivity
    linarith
  · rintro rfl
    rw [sub_self, abs_zero, ieee64_zero]


/-- A result is at most a double that the exact one does not exceed. -/
theorem ieee64_le {x B : ℝ} (hB : IsBinary64 B) (h : |x| ≤ B) : ∃ w, ieee64 x = .fin w ∧ |w| ≤ B := by
  have h1 := ieee64_mono (abs_le.1 h).2
  have h2 := ieee64_mono (abs_le.1 h).1
  rw [ieee64_neg, ieee64_double hB] at h2
  rw [ieee64_double hB] at h1
  cases e : ieee64 x with
  | fin w =>
    rw [e, Flt.fin_le_fin] at h1
    rw [e] at h2
    simp only [Flt.neg, Flt.fin_le_fin] at h2
    exact ⟨w, rfl, abs_le.2 ⟨h2, h1⟩⟩
  | pinf => rw [e] at h1; simp at h1
  | ninf => rw [e] at h2; simp [Flt.neg] at h2
  | nan => exact absurd e (ieee64_ne_nan x)

/-- A non-negative number becomes a non-negative number or plus infinity. -/
theorem ieee64_cases {x : ℝ} (h : 0 ≤ x) : ieee64 x = .pinf ∨ ∃ w, ieee64 x = .fin w ∧ 0 ≤ w := by
  have := ieee64_nonneg h
  cases e : ieee64 x with
  | fin w => rw [e, Flt.fin_le_fin] at this; exact Or.inr ⟨w, rfl, this⟩
  | pinf => exact Or.inl rfl
  | ninf => rw [e] at this; simp at this
  | nan => exact absurd e (ieee64_ne_nan x)

/-- A result is at most twice the exact one. -/
theorem ieee64_twice {x w : ℝ} (h : ieee64 x = .fin w) : |w| ≤ 2 * |x| := by
  have := ((C127_nearest h).2 0 isBinary64_zero).1
  rw [sub_zero] at this
  have h2 := abs_sub_abs_le_abs_sub w x
  rw [abs_sub_comm w x] at h2
  linarith

/-! ## Parts of the losses -/

/-- The computed square of a float. -/
noncomputable def sqOf (D : Flt ℝ) : Flt ℝ := iF (D.mul D)

/-- The computed log loss from the square of the standardised difference. -/
noncomputable def tailOf (c l : ℝ) (Q : Flt ℝ) : Flt ℝ :=
  (iF ((iF ((iF ((Q.neg).div (.fin 2))).sub (.fin c))).sub (.fin l))).neg

/-- The computed log loss from the absolute difference. -/
noncomputable def logOf (L : Lib ℝ) (s : ℝ) (D : Flt ℝ) : Flt ℝ := tailOf (normLogCR L) (L.log s) (sqOf (iF (D.div (.fin s))))

theorem sqOf_fabs (d : Flt ℝ) : sqOf (Paper.fabs d) = sqOf d := by
  cases d with
  | fin x => unfold sqOf; simp only [Paper.fabs, Flt.mul_fin, abs_mul_abs_self]
  | _ => rfl

theorem iF_fabs (d : Flt ℝ) : Paper.fabs (iF d) = iF (Paper.fabs d) := by
  cases d with
  | fin x => exact fabs_ieee64 x
  | _ => rfl

theorem div_fabs {s : ℝ} (hs : 0 < s) (d : Flt ℝ) : Paper.fabs (d.div (.fin s)) = (Paper.fabs d).div (.fin s) := by
  cases d with
  | fin x =>
    simp only [Paper.fabs, Flt.div_fin hs.ne']
    rw [abs_div, abs_of_pos hs]
  | pinf => simp [Flt.div, hs.not_gt, Paper.fabs]
  | ninf => simp [Flt.div, hs.not_gt, Paper.fabs]
  | nan => rfl

theorem square_point (a m : ℝ) : iF ((iF (Flt.sub (.fin a) (.fin m))).mul (iF (Flt.sub (.fin a) (.fin m)))) = sqOf (ieee64 |a - m|) := by
  rw [Flt.sub_fin, ← fabs_ieee64, sqOf_fabs]; rfl

theorem abs_point (a m : ℝ) : Paper.fabs (iF (Flt.sub (.fin a) (.fin m))) = ieee64 |a - m| := by
  rw [Flt.sub_fin, ← fabs_ieee64]; rfl

theorem log_point (L : Lib ℝ) (a m : ℝ) {s : ℝ} (hs : 0 < s) :
    (normLogpdfI L (.fin a) (.fin m) (.fin s)).neg = logOf L s (ieee64 |a - m|) := by
  unfold normLogpdfI logOf tailOf
  dsimp only
  rw [Flt.sub_fin, ← fabs_ieee64, ← div_fabs hs, ← iF_fabs, sqOf_fabs]
  simp only [flogR, if_pos hs]
  rfl

theorem perPointI_zip2 {y mu std : Arr} {n : Nat} (h : RegrInput y mu std n) (hy : y.Ok) (hm : mu.Ok) (hs : std.Ok)
    {g : Flt ℝ → Flt ℝ → Flt ℝ} {f : ℝ → ℝ → Flt ℝ} (hg : ∀ a m, g (.fin a) (.fin m) = f a m) :
    PerPointI (fun a m _ v => v = f a m) y mu std (List.zipWith g y.data mu.data) := by
  obtain ⟨l1, l2, -⟩ := regrInput_lengths h hy hm hs
  refine ⟨by rw [List.length_zipWith]; omega, fun i a m s ha hm' _ => ⟨_, ?_, rfl⟩⟩
  rw [List.getElem?_zipWith, ha, hm', ← hg a m]

theorem squareI_value {y mu std : Arr} {n : Nat} (h : RegrInput y mu std n) (hy : y.Ok) (hm : mu.Ok) (hs : std.Ok) :
    ∃ l, squareLossI y mu std = .ok l ∧ PerPointI (fun a m _ v => v = sqOf (ieee64 |a - m|)) y mu std l := by
  refine ⟨_, ?_, perPointI_zip2 h hy hm hs (g := fun a m => iF ((iF (a.sub m)).mul (iF (a.sub m)))) square_point⟩
  unfold squareLossI; rw [(C85_accepts ..).2 h, ok_bind]; rfl

theorem absI_value {y mu std : Arr} {n : Nat} (h : RegrInput y mu std n) (hy : y.Ok) (hm : mu.Ok) (hs : std.Ok) :
    ∃ l, absLossI y mu std = .ok l ∧ PerPointI (fun a m _ v => v = ieee64 |a - m|) y mu std l := by
  refine ⟨_, ?_, perPointI_zip2 h hy hm hs (g := fun a m => Paper.fabs (iF (a.sub m))) abs_point⟩
  unfold absLossI; rw [(C85_accepts ..).2 h, ok_bind]; rfl

theorem logI_value (L : Lib ℝ) {y mu std : Arr} {n : Nat} (h : RegrInput y mu std n) (hy : y.Ok) (hm : mu.Ok) (hs : std.Ok) :
    ∃ l, logLossI L y mu std = .ok l ∧ PerPointI (fun a m s v => v = logOf L s (ieee64 |a - m|)) y mu std l := by
  obtain ⟨l1, l2, l3⟩ := regrInput_lengths h hy hm hs
  refine ⟨List.zipWith (fun (a : Flt ℝ) (ms : Flt ℝ × Flt ℝ) => (normLogpdfI L a ms.1 ms.2).neg) y.data
    (mu.data.zip std.data), ?_, ?_, ?_⟩
  · unfold logLossI; rw [(C85_accepts ..).2 h, ok_bind]; rfl
  · rw [List.length_zipWith, List.length_zip]; omega
  · intro i a m s ha hm' hs'
    have hpos : 0 < s := by
      have := h.positive _ (List.mem_of_getElem? hs')
      rwa [Flt.fin_lt_fin] at this
    have hz : (mu.data.zip std.data)[i]? = some (.fin m, .fin s) := by
      rw [List.zip, List.getElem?_zipWith, hm', hs']
    refine ⟨_, ?_, rfl⟩
    rw [List.getElem?_zipWith, ha, hz]
    simp only []
    rw [log_point L a m hpos]

theorem perPointI_imp {R R' : ℝ → ℝ → ℝ → Flt ℝ → Prop} {y mu std : Arr} {l : List (Flt ℝ)} (h : PerPointI R y mu std l)
    (hR : ∀ a m s v, Flt.fin a ∈ y.data → Flt.fin m ∈ mu.data → Flt.fin s ∈ std.data → R a m s v → R' a m s v) : PerPointI R' y mu std l :=
  ⟨h.1, fun i a m s h1 h2 h3 => by
    obtain ⟨v, h4, h5⟩ := h.2 i a m s h1 h2 h3
    exact ⟨v, h4, hR a m s v (List.mem_of_getElem? h1) (List.mem_of_getElem? h2) (List.mem_of_getElem? h3) h5⟩⟩

/-! ## The theorems -/

/-- **C149, acceptance.**  The losses raise on the same input as with exact numbers. -/
theorem C149_reject {y mu std : Arr} (h : ¬ ∃ n, RegrInput y mu std n) :
    ∀ loss ∈ [squareLossI, absLossI, logLossI L], loss y mu std = .error (if y.shape.length = 1 then .assertion else .valueError) := by
  intro loss hl
  simp only [List.mem_cons, List.not_mem_nil, or_false] at hl
  rcases hl with rfl | rfl | rfl
  · unfold squareLossI; rw [validate_error h]; rfl
  · unfold absLossI; rw [validate_error h]; rfl
  · unfold logLossI; rw [validate_error h]; rfl

/-- **C149, absolute loss.**  It is the double for the absolute difference, plus infinity if there is none, and 0 exactly for a perfect mean. -/
theorem C149_abs {y mu std : Arr} {n : Nat} (h : RegrInput y mu std n) (hy : y.Ok) (hm : mu.Ok) (hs : std.Ok) (hyd : Doubles y) (hmd : Doubles mu) :
    ∃ l, absLossI y mu std = .ok l ∧ PerPointI (fun a m _ v => RoundsTo |a - m| v ∧ (v = .fin 0 ↔ a = m)) y mu std l := by
  obtain ⟨l, h1, h2⟩ := absI_value h hy hm hs
  refine ⟨l, h1, perPointI_imp h2 ?_⟩
  rintro a m s _ ha hm' - rfl
  exact ⟨ieee64_roundsTo _, ieee64_sub_zero (hyd a ha) (hmd m hm')⟩

theorem sqOf_cases {D : Flt ℝ} (h : D = .pinf ∨ ∃ w, D = .fin w ∧ 0 ≤ w) : sqOf D = .pinf ∨ ∃ w, sqOf D = .fin w ∧ 0 ≤ w := by
  rcases h with rfl | ⟨w, rfl, hw⟩
  · exact Or.inl rfl
  · exact ieee64_cases (mul_self_nonneg w)

theorem sqOf_mono {D D' : Flt ℝ} (h : D = .pinf ∨ ∃ w, D = .fin w ∧ 0 ≤ w) (h' : D' = .pinf ∨ ∃ w, D' = .fin w ∧ 0 ≤ w) (hl : D ≤ D') :
    sqOf D ≤ sqOf D' := by
  rcases h' with rfl | ⟨w', rfl, hw'⟩
  · rcases sqOf_cases h with e | ⟨w, e, -⟩ <;> rw [e]
    · exact le_rfl
    · exact Flt.fin_le_pinf _
  · rcases h with rfl | ⟨w, rfl, hw⟩
    · simp at hl
    · rw [Flt.fin_le_fin] at hl
      exact ieee64_mono (mul_self_le_mul_self hw hl)

theorem pow_double {e : Nat} (h : e ≤ 1023) : IsBinary64 ((2 : ℝ) ^ e) := by
  rcases le_total e 971 with he | he
  · exact_mod_cast isBinary64_pow (e : Int) (by omega) (by omega)
  · refine ⟨2 ^ (e - 971), 971, ?_, by norm_num, by norm_num, ?_⟩
    · rw [abs_of_pos (by positivity)]
      exact pow_lt_pow_right₀ (by norm_num) (by omega)
    · push_cast
      rw [show ((2 : ℝ) ^ (971 : Int)) = 2 ^ 971 from by exact_mod_cast rfl, ← pow_add, Nat.sub_add_cancel he]

theorem sqOf_overflow {D : Flt ℝ} (h : .fin (2 ^ 512) ≤ D) (hn : D ≠ .nan) : sqOf D = .pinf := by
  cases D with
  | fin w =>
    rw [Flt.fin_le_fin] at h
    refine (C127_overflow (x := w * w)).1.2 ?_
    have h1 : (2 : ℝ) ^ 512 * 2 ^ 512 ≤ w * w := mul_self_le_mul_self (by positivity) h
    rw [← pow_add, show 512 + 512 = 1024 by norm_num] at h1
    exact (sub_le_self _ (by positivity)).trans h1
  | pinf => rfl
  | ninf => simp at h
  | nan => exact absurd rfl hn

theorem big_square : ((2 : ℝ) ^ 512 - 2 ^ 459) * (2 ^ 512 - 2 ^ 459) < 2 ^ 1024 - 2 ^ 970 := by
  have e1 : (2 : ℝ) ^ 1024 = 2 ^ 512 * 2 ^ 512 := by rw [← pow_add]
  have e2 : (2 : ℝ) ^ 970 = 2 ^ 512 * 2 ^ 458 := by rw [← pow_add]
  have e3 : (2 : ℝ) ^ 459 = 2 ^ 458 * 2 := by rw [← pow_succ]
  have e4 : (2 : ℝ) ^ 512 = 2 ^ 458 * 2 ^ 54 := by rw [← pow_add]
  have hp : (0 : ℝ) < 2 ^ 458 := by positivity
  rw [e1, e2, e3]
  have h5 : (2 : ℝ) ^ 458 * 4 ≤ 2 ^ 512 := by
    rw [e4]; exact mul_le_mul_of_nonneg_left (by norm_num) hp.le
  generalize (2 : ℝ) ^ 512 = T at *
  generalize (2 : ℝ) ^ 458 = A at *
  clear e1 e2 e3 e4
  have h6 : A * (A * 4) ≤ A * T := mul_le_mul_of_nonneg_left h5 hp.le
  have h7 : 0 < A * T := mul_pos hp (by linarith)
  nlinarith

theorem pred_double : IsBinary64 ((2 : ℝ) ^ 512 - 2 ^ 459) := by
  refine ⟨9007199254740991, 459, by norm_num, by norm_num, by norm_num, ?_⟩
  rw [show ((2 : ℝ) ^ (459 : Int)) = 2 ^ 459 from by exact_mod_cast rfl, show (2 : ℝ) ^ 512 = 2 ^ 53 * 2 ^ 459 from by rw [← pow_add]]
  push_cast
  ring

theorem tiny_zero {x : ℝ} (h0 : 0 ≤ x) (h : x ≤ 2 ^ (-1076 : Int)) : ieee64 x = .fin 0 := by
  have hB := isBinary64_pow (-1074) (by norm_num) (by norm_num)
  have hT : (0 : ℝ) < 2 ^ (-1076 : Int) := by positivity
  have e1 : (2 : ℝ) ^ (-1074 : Int) = 4 * 2 ^ (-1076 : Int) := by
    rw [show (-1074 : Int) = 2 + -1076 by norm_num, zpow_add₀ (by norm_num)]; norm_num
  obtain ⟨w, hw, -⟩ := ieee64_le hB (by rw [abs_of_nonneg h0, e1]; linarith)
  have h1 := ieee64_twice hw
  rw [abs_of_nonneg h0] at h1
  obtain ⟨k, hk⟩ := isBinary64_grid (C127_nearest hw).1
  have h2 : |(k : ℝ)| < 1 := by
    rw [← hk, abs_mul, abs_of_pos (a := (2 : ℝ) ^ 1074) (by positivity)]
    have e2 : (2 : ℝ) ^ (-1074 : Int) * 2 ^ 1074 = 1 := by
      rw [zpow_neg]
      exact_mod_cast inv_mul_cancel₀ (by positivity)
    have h3 : |w| < 2 ^ (-1074 : Int) := by rw [e1]; linarith
    calc |w| * 2 ^ 1074 < 2 ^ (-1074 : Int) * 2 ^ 1074 := mul_lt_mul_of_pos_right h3 (by positivity)
      _ = 1 := e2
  have h4 : k = 0 := by
    have : |k| < 1 := by exact_mod_cast h2
    exact Int.abs_lt_one_iff.1 this
  rw [h4, Int.cast_zero] at hk
  rw [hw, (mul_eq_zero.1 hk).resolve_right (by positivity)]

/-- **C149, square loss.**  It is the double for the square of the computed absolute difference.  It is never NaN and never negative; it is plus infinity if the difference is `2 ^ 512`
(about `1.3e154`) or more, and not if it is smaller by one unit in the last place; and it is 0 for differences up to `2 ^ -538`, although the mean is wrong, and not
for differences of `2 ^ -537` (about `2.2e-162`) or more. -/
theorem C149_square {y mu std : Arr} {n : Nat} (h : RegrInput y mu std n) (hy : y.Ok) (hm : mu.Ok) (hs : std.Ok) :
    ∃ l, squareLossI y mu std = .ok l ∧ PerPointI (fun a m _ v =>
      (∃ d, RoundsTo |a - m| d ∧ (d = .pinf ∧ v = .pinf ∨ ∃ x, d = .fin x ∧ RoundsTo (x * x) v)) ∧ v ≠ .nan ∧ .fin 0 ≤ v ∧
      (2 ^ 512 ≤ |a - m| → v = .pinf) ∧ (|a - m| ≤ 2 ^ 512 - 2 ^ 459 → v ≠ .pinf) ∧
      (|a - m| ≤ 2 ^ (-538 : Int) → v = .fin 0) ∧ (2 ^ (-537 : Int) ≤ |a - m| → v ≠ .fin 0)) y mu std l := by
  obtain ⟨l, h1, h2⟩ := squareI_value h hy hm hs
  refine ⟨l, h1, perPointI_imp h2 ?_⟩
  rintro a m s _ - - - rfl
  have hc := ieee64_cases (abs_nonneg (a - m))
  have hq := sqOf_cases hc
  refine ⟨⟨_, ieee64_roundsTo _, ?_⟩, ?_, ?_, ?_, ?_, ?_, ?_⟩
  · rcases hc with e | ⟨w, e, -⟩ <;> rw [e]
    · exact Or.inl ⟨rfl, rfl⟩
    · exact Or.inr ⟨w, rfl, ieee64_roundsTo _⟩
  · rcases hq with e | ⟨w, e, -⟩ <;> rw [e] <;> simp
  · rcases hq with e | ⟨w, e, hw⟩ <;> rw [e]
    · exact Flt.fin_le_pinf _
    · rwa [Flt.fin_le_fin]
  · intro hb
    have := ieee64_mono hb
    rw [ieee64_double (pow_double (by norm_num))] at this
    exact sqOf_overflow this (ieee64_ne_nan _)
  · intro hb
    obtain ⟨w, e, hw⟩ := ieee64_le pred_double (by rwa [abs_abs])
    rw [e]
    intro hp
    have h3 := (C127_overflow (x := w * w)).1.1 hp
    have h4 : w * w ≤ (2 ^ 512 - 2 ^ 459) * (2 ^ 512 - 2 ^ 459) := by
      rw [← abs_mul_abs_self w]
      exact mul_self_le_mul_self (abs_nonneg _) hw
    exact big_square.not_ge (h3.trans h4)
  · intro hb
    obtain ⟨w, e, hw⟩ := ieee64_le (isBinary64_pow (-538) (by norm_num) (by norm_num)) (by rwa [abs_abs])
    rw [e]
    refine tiny_zero (mul_self_nonneg w) ?_
    rw [← abs_mul_abs_self w, show (-1076 : Int) = -538 + -538 by norm_num, zpow_add₀ (by norm_num)]
    exact mul_self_le_mul_self (abs_nonneg _) hw
  · intro hb hz
    have h3 := sqOf_mono (D := .fin (2 ^ (-537 : Int))) (Or.inr ⟨_, rfl, by positivity⟩) hc (by
      have := ieee64_mono hb
      rwa [ieee64_double (isBinary64_pow (-537) (by norm_num) (by norm_num))] at this)
    rw [hz] at h3
    have h4 : sqOf (.fin (2 ^ (-537 : Int))) = .fin (2 ^ (-1074 : Int)) := by
      unfold sqOf
      rw [Flt.mul_fin, ← zpow_add₀ (by norm_num)]
      exact ieee64_double (isBinary64_pow _ (by norm_num) (by norm_num))
    rw [h4, Flt.fin_le_fin] at h3
    have : (0 : ℝ) < 2 ^ (-1074 : Int) := by positivity
    linarith

/-! ## Log loss -/

theorem double_lt {w : ℝ} (h : IsBinary64 w) : |w| < 2 ^ 1024 - 2 ^ 970 := by
  rcases ieee64_roundsTo w with ⟨e, -⟩ | ⟨e, -⟩ | ⟨_, _, h1, _⟩
  · rw [ieee64_double h] at e; cases e
  · rw [ieee64_double h] at e; cases e
  · exact h1

/-- A double times a power of two is a double or too large. -/
theorem double_scale {s : ℝ} (h : IsBinary64 s) (k : Nat) : IsBinary64 (2 ^ k * s) ∨ 2 ^ 1024 - 2 ^ 970 ≤ |2 ^ k * s| := by
  rcases lt_or_ge |2 ^ k * s| (2 ^ 1024 - 2 ^ 970) with hlt | hge
  · left
    obtain ⟨m, e, hm, h1, h2, rfl⟩ := h
    have e1 : (2 : ℝ) ^ k * ((m : ℝ) * 2 ^ e) = m * 2 ^ (e + k) := by
      rw [zpow_add₀ (by norm_num), zpow_natCast]; ring
    have e2 : binary64 ((2 : ℝ) ^ k * ((m : ℝ) * 2 ^ e)) = 2 ^ k * ((m : ℝ) * 2 ^ e) := by
      rw [e1, binary64_exact m _ hm.le]
    have e3 : ieeeRound ((2 : ℝ) ^ k * ((m : ℝ) * 2 ^ e)) = 2 ^ k * ((m : ℝ) * 2 ^ e) := by
      rcases lt_or_ge |(2 : ℝ) ^ k * ((m : ℝ) * 2 ^ e)| (2 ^ 1022)⁻¹ with hs | hb
      · rw [ieeeRound_inRange, e2]
        refine ⟨hs.le.trans ((inv_le_one_of_one_le₀ (one_le_pow₀ (by norm_num))).trans (one_le_pow₀ (by norm_num))), Or.inr ?_⟩
        refine ⟨m * 2 ^ (e + k + 1074).toNat, ?_⟩
        rw [e1]
        push_cast
        rw [mul_assoc, ← zpow_natCast (2 : ℝ) (e + k + 1074).toNat, Int.toNat_of_nonneg (by omega), zpow_add₀ (by norm_num) (e + k)]
        norm_cast
      · rw [ieeeRound_big hb, e2]
    exact C127_doubles.1 (ieee64_fin_iff.2 ⟨e3, hlt.trans_le (sub_le_self _ (by positivity))⟩)
  · exact Or.inr hge

theorem near_double (k : Nat) (h1 : 1 ≤ k) (h2 : k ≤ 2) : IsBinary64 ((2 : ℝ) ^ 1023 + k * 2 ^ 971) := by
  refine ⟨2 ^ 52 + k, 971, ?_, by norm_num, by norm_num, ?_⟩
  · rw [abs_of_pos (by positivity)]
    have : (k : Int) ≤ 2 := by exact_mod_cast h2
    norm_num; omega
  · push_cast
    rw [show ((2 : ℝ) ^ (971 : Int)) = 2 ^ 971 from by exact_mod_cast rfl, show (2 : ℝ) ^ 1023 = 2 ^ 52 * 2 ^ 971 from by rw [← pow_add]]
    norm_num
    ring

theorem tailOf_pinf (c l : ℝ) : tailOf c l .pinf = .pinf := by
  simp [tailOf, Flt.neg, Flt.div, iF, Flt.sub, Flt.add, show ¬ (2 : ℝ) < 0 by norm_num]

/-- The rest of the computation of the log loss does not overflow. -/
theorem tailOf_fin {c l q : ℝ} (hc : |c| ≤ 2 ^ 10) (hl : |l| ≤ 2 ^ 10) (hq : |q| ≤ 2 ^ 1024) : ∃ v, tailOf c l (.fin q) = .fin v := by
  have hs : (2 : ℝ) ^ 10 ≤ 2 ^ 971 := pow_le_pow_right₀ (by norm_num) (by norm_num)
  have e0 : (2 : ℝ) ^ 1024 = 2 ^ 1023 * 2 := by rw [← pow_succ]
  have d1 := pow_double (e := 1023) le_rfl
  have d2 := near_double 1 (by norm_num) (by norm_num)
  have d3 := near_double 2 (by norm_num) (by norm_num)
  rw [e0] at hq
  unfold tailOf
  simp only [Flt.neg, Flt.div_fin (two_ne_zero (α := ℝ)), iF]
  generalize (2 : ℝ) ^ 1023 = T at *
  generalize (2 : ℝ) ^ 971 = A at *
  generalize (2 : ℝ) ^ 10 = B at *
  obtain ⟨w1, f1, b1⟩ := ieee64_le d1 (x := -q / 2) (by
    rw [abs_div, abs_neg, abs_of_pos (a := (2 : ℝ)) (by norm_num)]; linarith)
  rw [f1, Flt.sub_fin]
  obtain ⟨w2, f2, b2⟩ := ieee64_le d2 (x := w1 - c) (by
    have := abs_sub w1 c
    push_cast
    linarith)
  simp only []
  rw [f2, Flt.sub_fin]
  obtain ⟨w3, f3, b3⟩ := ieee64_le d3 (x := w2 - l) (by
    have := abs_sub w2 l
    push_cast at b2 ⊢
    linarith)
  simp only []
  rw [f3]
  exact ⟨_, rfl⟩

theorem div_cases {s : ℝ} (hs : 0 < s) {D : Flt ℝ} (h : D = .pinf ∨ ∃ w, D = .fin w ∧ 0 ≤ w) :
    iF (D.div (.fin s)) = .pinf ∨ ∃ w, iF (D.div (.fin s)) = .fin w ∧ 0 ≤ w := by
  rcases h with rfl | ⟨w, rfl, hw⟩
  · left; simp [Flt.div, hs.not_gt, iF]
  · rw [Flt.div_fin hs.ne']; exact ieee64_cases (div_nonneg hw hs.le)

theorem iF_div_mono {s : ℝ} (hs : 0 < s) {D D' : Flt ℝ} (h : D = .pinf ∨ ∃ w, D = .fin w ∧ 0 ≤ w) (h' : D' = .pinf ∨ ∃ w, D' = .fin w ∧ 0 ≤ w) (hl : D ≤ D') :
    iF (D.div (.fin s)) ≤ iF (D'.div (.fin s)) := by
  have hp : iF (Flt.div .pinf (.fin s)) = .pinf := by simp [Flt.div, hs.not_gt, iF]
  rcases h' with rfl | ⟨w', rfl, hw'⟩
  · rw [hp]
    rcases div_cases hs h with e | ⟨w, e, -⟩
    · rw [e]
    · rw [e]; exact Flt.fin_le_pinf _
  · rcases h with rfl | ⟨w, rfl, hw⟩
    · simp at hl
    · rw [Flt.fin_le_fin] at hl
      rw [Flt.div_fin hs.ne', Flt.div_fin hs.ne']
      exact ieee64_mono (div_le_div_of_nonneg_right hl hs.le)

theorem neg_mono {D D' : Flt ℝ} (hn : D ≠ .nan) (hn' : D' ≠ .nan) (h : D ≤ D') : D'.neg ≤ D.neg := by
  cases D <;> cases D' <;> simp_all [Flt.neg]

theorem iF_mono {D D' : Flt ℝ} (h : D ≤ D') : iF D ≤ iF D' := by
  cases D with
  | fin x => cases D' with
    | fin x' => rw [Flt.fin_le_fin] at h; exact ieee64_mono h
    | pinf =>
      show ieee64 x ≤ .pinf
      cases e : ieee64 x with
      | nan => exact absurd e (ieee64_ne_nan x)
      | _ => simp
    | ninf => simp at h
    | nan => simp [iF]
  | pinf => cases D' with
    | pinf => exact le_rfl
    | fin x => simp at h
    | ninf => simp at h
    | nan => simp [iF]
  | ninf => exact Flt.ninf_le _
  | nan => cases D' <;> simp_all

theorem sub_num_mono {D D' : Flt ℝ} {c : ℝ} (h : D ≤ D') : D.sub (.fin c) ≤ D'.sub (.fin c) := by
  cases D with
  | fin x => cases D' with
    | fin x' => rw [Flt.fin_le_fin] at h; rw [Flt.sub_fin, Flt.sub_fin, Flt.fin_le_fin]; linarith
    | pinf => simp [Flt.sub, Flt.add, Flt.neg]
    | ninf => simp at h
    | nan => simp [Flt.sub, Flt.add, Flt.neg]
  | pinf => cases D' with
    | pinf => exact le_rfl
    | fin x => simp at h
    | ninf => simp at h
    | nan => simp [Flt.sub, Flt.add, Flt.neg]
  | ninf => simp [Flt.sub, Flt.add, Flt.neg]
  | nan => cases D' <;> simp_all

/-- The log loss of a sample is a number or plus infinity, and which of them depends on the square only. -/
theorem tailOf_cases {c l : ℝ} (hc : |c| ≤ 2 ^ 10) (hl : |l| ≤ 2 ^ 10) {x : ℝ} (h : 0 ≤ x) {Q : Flt ℝ} (hQ : Q = .pinf ∨ Q = ieee64 x) :
    (Q = .pinf ∧ tailOf c l Q = .pinf) ∨ ∃ q v, Q = .fin q ∧ tailOf c l Q = .fin v := by
  rcases hQ with rfl | rfl
  · exact Or.inl ⟨rfl, tailOf_pinf c l⟩
  · rcases ieee64_cases h with e | ⟨w, e, -⟩
    · rw [e]; exact Or.inl ⟨rfl, tailOf_pinf c l⟩
    · right
      obtain ⟨v, hv⟩ := tailOf_fin hc hl (q := w) ((double_lt (C127_nearest e).1).le.trans (sub_le_self _ (by positivity)))
      exact ⟨w, v, e, by rw [e, hv]⟩

theorem sqOf_form {D : Flt ℝ} (h : D = .pinf ∨ ∃ w, D = .fin w ∧ 0 ≤ w) : ∃ x, 0 ≤ x ∧ (sqOf D = .pinf ∨ sqOf D = ieee64 x) := by
  rcases h with rfl | ⟨w, rfl, -⟩
  · exact ⟨0, le_rfl, Or.inl rfl⟩
  · exact ⟨w * w, mul_self_nonneg w, Or.inr rfl⟩

/-- **C149, log loss.**  Its value comes from the rounded operations of the formula `-z^2/2 - log(sqrt(2 pi)) - log s`, where `z` is the standardised difference.  With logarithms that are not
larger than 1024, it is a number or plus infinity, never NaN and never minus infinity.  It is plus infinity if the difference is `2 ^ 512` standard deviations or more,
or if the difference itself is too large for a double, even if the standard deviation is as large; and otherwise it is a number if the difference is at most `2 ^ 511` standard deviations. -/
theorem C149_log {y mu std : Arr} {n : Nat} (h : RegrInput y mu std n) (hy : y.Ok) (hm : mu.Ok) (hs : std.Ok) (hsd : Doubles std)
    (hc : |normLogCR L| ≤ 2 ^ 10) (hl : ∀ s : ℝ, Flt.fin s ∈ std.data → |L.log s| ≤ 2 ^ 10) :
    ∃ l, logLossI L y mu std = .ok l ∧ PerPointI (fun a m s v =>
      (v = .pinf ∨ ∃ d z q t u w, RoundsTo |a - m| (.fin d) ∧ RoundsTo (d / s) (.fin z) ∧ RoundsTo (z * z) (.fin q) ∧ RoundsTo (-q / 2) (.fin t) ∧
        RoundsTo (t - normLogCR L) (.fin u) ∧ RoundsTo (u - L.log s) (.fin w) ∧ v = .fin (-w)) ∧
      (2 ^ 512 * s ≤ |a - m| → v = .pinf) ∧ (2 ^ 1024 - 2 ^ 970 ≤ |a - m| → v = .pinf) ∧
      (|a - m| < 2 ^ 1024 - 2 ^ 970 → |a - m| ≤ 2 ^ 511 * s → v ≠ .pinf)) y mu std l := by
  obtain ⟨l, h1, h2⟩ := logI_value L h hy hm hs
  refine ⟨l, h1, perPointI_imp h2 ?_⟩
  rintro a m s _ - - hs' rfl
  have hpos : 0 < s := by
    have := h.positive _ hs'
    rwa [Flt.fin_lt_fin] at this
  have hl' := hl s hs'
  have hd := hsd s hs'
  have hcd := ieee64_cases (abs_nonneg (a - m))
  have hcz := div_cases hpos hcd
  obtain ⟨x, hx, hQ⟩ := sqOf_form hcz
  have ht := tailOf_cases hc hl' hx hQ
  have hZ : iF (Flt.div .pinf (.fin s)) = .pinf := by simp [Flt.div, hpos.not_gt, iF]
  have habs : ∀ k : Nat, |2 ^ k * s| = 2 ^ k * s := fun k => abs_of_pos (by positivity)
  have hbig : 2 ^ 1024 - 2 ^ 970 ≤ |a - m| → logOf L s (ieee64 |a - m|) = .pinf := by
    intro hb
    rw [(C127_overflow (x := |a - m|)).1.2 hb]
    unfold logOf
    rw [hZ]
    exact tailOf_pinf _ _
  refine ⟨?_, ?_, hbig, ?_⟩
  · rcases ht with ⟨-, e⟩ | ⟨q, v, e, e'⟩
    · exact Or.inl e
    · right
      rcases hcd with f | ⟨d, f, -⟩
      · rw [f, hZ] at e; cases e
      rcases hcz with g | ⟨z, g, -⟩
      · rw [g] at e; cases e
      unfold logOf
      rw [g] at e e' ⊢
      rw [f, Flt.div_fin hpos.ne'] at g
      have e1 : ieee64 (z * z) = .fin q := e
      rw [e] at e' ⊢
      unfold tailOf at e' ⊢
      simp only [Flt.neg, Flt.div_fin (two_ne_zero (α := ℝ)), iF] at e' ⊢
      have hb := ((double_lt (C127_nearest e1).1).le.trans (sub_le_self _ (by positivity)))
      have e0 : (2 : ℝ) ^ 1024 = 2 ^ 1023 * 2 := by rw [← pow_succ]
      obtain ⟨t, ft, -⟩ := ieee64_le (pow_double (e := 1023) le_rfl) (x := -q / 2) (by
        rw [e0] at hb
        rw [abs_div, abs_neg, abs_of_pos (a := (2 : ℝ)) (by norm_num)]
        generalize (2 : ℝ) ^ 1023 = T at *
        linarith)
      rw [ft, Flt.sub_fin] at e' ⊢
      simp only [] at e' ⊢
      cases fu : ieee64 (t - normLogCR L) with
      | fin u =>
        rw [fu, Flt.sub_fin] at e'
        rw [Flt.sub_fin]
        simp only [] at e' ⊢
        cases fw : ieee64 (u - L.log s) with
        | fin w =>
          exact ⟨d, z, q, t, u, w, f ▸ ieee64_roundsTo _, g ▸ ieee64_roundsTo _, e1 ▸ ieee64_roundsTo _, ft ▸ ieee64_roundsTo _, fu ▸ ieee64_roundsTo _,
            fw ▸ ieee64_roundsTo _, rfl⟩
        | pinf => rw [fw] at e'; cases e'
        | ninf => rw [fw] at e'; cases e'
        | nan => rw [fw] at e'; cases e'
      | pinf => rw [fu] at e'; simp [Flt.sub, Flt.add, Flt.neg] at e'
      | ninf => rw [fu] at e'; simp [Flt.sub, Flt.add, Flt.neg] at e'
      | nan => rw [fu] at e'; simp [Flt.sub, Flt.add] at e'
  · intro hge
    rcases double_scale hd 512 with hb | hb
    · have h3 := ieee64_mono hge
      rw [ieee64_double hb] at h3
      have h4 := iF_div_mono hpos (D := .fin (2 ^ 512 * s)) (Or.inr ⟨_, rfl, by positivity⟩) hcd h3
      rw [Flt.div_fin hpos.ne', mul_div_cancel_right₀ _ hpos.ne'] at h4
      have h5 : iF (.fin ((2 : ℝ) ^ 512)) = .fin (2 ^ 512) := ieee64_double (pow_double (by norm_num))
      rw [h5] at h4
      unfold logOf
      rw [sqOf_overflow h4 (by rcases hcz with e | ⟨w, e, -⟩ <;> rw [e] <;> simp)]
      exact tailOf_pinf _ _
    · rw [habs] at hb
      exact hbig (hb.trans hge)
  · intro hlt hle hv
    have hq : ∃ w, ieee64 |a - m| = .fin w ∧ 0 ≤ w ∧ w ≤ 2 ^ 511 * s := by
      rcases hcd with e | ⟨w, e, hw⟩
      · exact absurd ((C127_overflow (x := |a - m|)).1.1 e) (not_le.2 hlt)
      · refine ⟨w, e, hw, ?_⟩
        rcases double_scale hd 511 with hb | hb
        · have h3 := ieee64_mono hle
          rwa [ieee64_double hb, e, Flt.fin_le_fin] at h3
        · rw [habs] at hb
          have := double_lt (C127_nearest e).1
          rw [abs_of_nonneg hw] at this
          exact this.le.trans hb
    obtain ⟨w, e, hw, hw2⟩ := hq
    obtain ⟨z, ez, hz⟩ := ieee64_le (pow_double (e := 511) (by norm_num)) (x := w / s) (by
      rw [abs_of_nonneg (div_nonneg hw hpos.le), div_le_iff₀ hpos]; exact hw2)
    obtain ⟨q, eq, -⟩ := ieee64_le (pow_double (e := 1022) (by norm_num)) (x := z * z) (by
      rw [abs_mul, show 1022 = 511 + 511 by norm_num, pow_add]
      exact mul_self_le_mul_self (abs_nonneg _) hz)
    have e1 : sqOf (iF ((ieee64 |a - m|).div (.fin s))) = .fin q := by
      rw [e, Flt.div_fin hpos.ne']
      have : iF (.fin (w / s)) = .fin z := ez
      rw [this]; exact eq
    rcases ht with ⟨e2, -⟩ | ⟨_, v, _, e'⟩
    · rw [e1] at e2; cases e2
    · have : logOf L s (ieee64 |a - m|) = .fin v := e'
      rw [this] at hv; cases hv

theorem half_mono {D D' : Flt ℝ} (h : D ≤ D') : D.div (.fin 2) ≤ D'.div (.fin 2) := by
  have h2 : ¬ (2 : ℝ) < 0 := by norm_num
  cases D with
  | fin x => cases D' with
    | fin x' =>
      rw [Flt.fin_le_fin] at h
      rw [Flt.div_fin two_ne_zero, Flt.div_fin two_ne_zero, Flt.fin_le_fin]; linarith
    | pinf => rw [Flt.div_fin two_ne_zero]; simp [Flt.div, h2]
    | ninf => simp at h
    | nan => simp [Flt.div]
  | pinf => cases D' with
    | pinf => exact le_rfl
    | fin x => simp at h
    | ninf => simp at h
    | nan => simp [Flt.div]
  | ninf => simp [Flt.div, h2]
  | nan => cases D' <;> simp_all

theorem logOf_mono {s : ℝ} (hs : 0 < s) (hc : |normLogCR L| ≤ 2 ^ 10) (hl : |L.log s| ≤ 2 ^ 10) {x x' : ℝ} (h0 : 0 ≤ x) (h : x ≤ x') :
    logOf L s (ieee64 x) ≤ logOf L s (ieee64 x') := by
  have c := div_cases hs (ieee64_cases h0)
  have c' := div_cases hs (ieee64_cases (h0.trans h))
  have h1 := sqOf_mono c c' (iF_div_mono hs (ieee64_cases h0) (ieee64_cases (h0.trans h)) (ieee64_mono h))
  have n1 : ∀ {Q : Flt ℝ}, (Q = .pinf ∨ ∃ w, Q = .fin w ∧ 0 ≤ w) → Q ≠ .nan := by
    rintro Q (e | ⟨w, e, -⟩) <;> rw [e] <;> simp
  have h2 := neg_mono (n1 (sqOf_cases c)) (n1 (sqOf_cases c')) h1
  have h3 := iF_mono (sub_num_mono (c := L.log s) (iF_mono (sub_num_mono (c := normLogCR L) (iF_mono (half_mono h2)))))
  have n2 : ∀ D : Flt ℝ, tailOf (normLogCR L) (L.log s) D ≠ .nan → iF ((iF ((iF ((D.neg).div (.fin 2))).sub (.fin (normLogCR L)))).sub (.fin (L.log s))) ≠ .nan := by
    intro D hD e
    apply hD
    unfold tailOf
    rw [e]; rfl
  have n3 : ∀ {D : Flt ℝ}, (D = .pinf ∨ ∃ w, D = .fin w ∧ 0 ≤ w) → tailOf (normLogCR L) (L.log s) (sqOf D) ≠ .nan := by
    intro D hD
    obtain ⟨y, hy, hQ⟩ := sqOf_form hD
    rcases tailOf_cases hc hl hy hQ with ⟨-, e⟩ | ⟨_, _, _, e⟩ <;> rw [e] <;> simp
  exact neg_mono (n2 _ (n3 c')) (n2 _ (n3 c)) h3

/-- **C149, better means.**  If every mean is at least as close to its target as another prediction with the same standard deviations, none of the losses of any sample
is larger, in spite of rounding, overflow and underflow. -/
theorem C149_closer {y mu mu' std : Arr} {n : Nat} (h : RegrInput y mu std n) (h' : RegrInput y mu' std n) (hy : y.Ok) (hm : mu.Ok) (hm' : mu'.Ok)
    (hs : std.Ok) (hc : |normLogCR L| ≤ 2 ^ 10) (hl : ∀ s : ℝ, Flt.fin s ∈ std.data → |L.log s| ≤ 2 ^ 10)
    (hcl : ∀ (i : Nat) (a m m' : ℝ), y.data[i]? = some (.fin a) → mu.data[i]? = some (.fin m) → mu'.data[i]? = some (.fin m') → |a - m| ≤ |a - m'|) :
    ∀ loss ∈ [squareLossI, absLossI, logLossI L], ∃ l l', loss y mu std = .ok l ∧ loss y mu' std = .ok l' ∧ List.Forall₂ (· ≤ ·) l l' := by
  obtain ⟨l1, l2, l3⟩ := regrInput_lengths h hy hm hs
  obtain ⟨-, l2', -⟩ := regrInput_lengths h' hy hm' hs
  have key : ∀ (f : ℝ → ℝ → Flt ℝ), (∀ x x' s, 0 ≤ x → x ≤ x' → 0 < s → Flt.fin s ∈ std.data → f x s ≤ f x' s) → ∀ l l',
      PerPointI (fun a m s v => v = f |a - m| s) y mu std l → PerPointI (fun a m s v => v = f |a - m| s) y mu' std l' → List.Forall₂ (· ≤ ·) l l' := by
    intro f hf l l' hl hl'
    refine List.forall₂_iff_get.2 ⟨by rw [hl.1, hl'.1], fun i hi hi' => ?_⟩
    have hin : i < n := by rw [← l1, ← hl.1]; exact hi
    obtain ⟨a, ha⟩ := h.numbers _ (Or.inl (List.getElem_mem (l1.symm ▸ hin : i < y.data.length)))
    obtain ⟨m, hm⟩ := h.numbers _ (Or.inr (Or.inl (List.getElem_mem (l2.symm ▸ hin : i < mu.data.length))))
    obtain ⟨m', hm'⟩ := h'.numbers _ (Or.inr (Or.inl (List.getElem_mem (l2'.symm ▸ hin : i < mu'.data.length))))
    obtain ⟨s, hs⟩ := h.numbers _ (Or.inr (Or.inr (List.getElem_mem (l3.symm ▸ hin : i < std.data.length))))
    have e1 : y.data[i]? = some (.fin a) := by rw [← ha, List.getElem?_eq_getElem]
    have e2 : mu.data[i]? = some (.fin m) := by rw [← hm, List.getElem?_eq_getElem]
    have e3 : mu'.data[i]? = some (.fin m') := by rw [← hm', List.getElem?_eq_getElem]
    have e4 : std.data[i]? = some (.fin s) := by rw [← hs, List.getElem?_eq_getElem]
    have hmem := List.mem_of_getElem? e4
    have hpos : 0 < s := by
      have := h.positive _ hmem
      rwa [Flt.fin_lt_fin] at this
    obtain ⟨v, f1, g1⟩ := hl.2 i a m s e1 e2 e4
    obtain ⟨v', f2, g2⟩ := hl'.2 i a m' s e1 e3 e4
    rw [List.getElem?_eq_getElem hi, Option.some.injEq] at f1
    rw [List.getElem?_eq_getElem hi', Option.some.injEq] at f2
    simp only [List.get_eq_getElem, f1, f2, g1, g2]
    exact hf _ _ s (abs_nonneg _) (hcl i a m m' e1 e2 e3) hpos hmem
  intro loss hl'
  simp only [List.mem_cons, List.not_mem_nil, or_false] at hl'
  rcases hl' with rfl | rfl | rfl
  · obtain ⟨l, h1, h2⟩ := squareI_value h hy hm hs
    obtain ⟨l', h1', h2'⟩ := squareI_value h' hy hm' hs
    exact ⟨l, l', h1, h1', key (fun x _ => sqOf (ieee64 x)) (fun x x' s h0 hle _ _ =>
      sqOf_mono (ieee64_cases h0) (ieee64_cases (h0.trans hle)) (ieee64_mono hle)) l l' h2 h2'⟩
  · obtain ⟨l, h1, h2⟩ := absI_value h hy hm hs
    obtain ⟨l', h1', h2'⟩ := absI_value h' hy hm' hs
    exact ⟨l, l', h1, h1', key (fun x _ => ieee64 x) (fun x x' s h0 hle _ _ => ieee64_mono hle) l l' h2 h2'⟩
  · obtain ⟨l, h1, h2⟩ := logI_value L h hy hm hs
    obtain ⟨l', h1', h2'⟩ := logI_value L h' hy hm' hs
    exact ⟨l, l', h1, h1', key (fun x s => logOf L s (ieee64 x)) (fun x x' s h0 hle hp hmem => logOf_mono hp hc (hl s hmem) h0 hle) l l' h2 h2'⟩

end Mlp.Props
