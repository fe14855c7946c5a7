import Verif.Props.RegrIeee
import Verif.Props.RegrIeeeExamples

/-!
# Property C149: where the exponent limits of doubles do not matter
-/

namespace Mlp.Props
open Mlp.Util Mlp.Spec Mlp.Regr Mlp.LossR Mlp.PaperR Mlp.PerfR Mlp.Round Mlp.Lemmas Mlp.RegrI

variable {L : Lib ℝ}

theorem binary64_ge {x : ℝ} {k : Nat} (h : (2 ^ k)⁻¹ ≤ |x|) : (2 ^ k)⁻¹ ≤ |binary64 x| := by
  have hr := binary64_floatRounding (K := ℝ)
  have e : binary64 (((2 : ℝ) ^ k)⁻¹) = (2 ^ k)⁻¹ := by
    have := binary64_exact (K := ℝ) 1 (-k) (by norm_num)
    simpa using this
  rcases le_total 0 x with h0 | h0
  · rw [abs_of_nonneg h0] at h
    have := hr.mono h
    rw [e] at this
    exact this.trans (le_abs_self _)
  · rw [abs_of_nonpos h0] at h
    have := hr.mono h
    rw [e, hr.neg] at this
    exact this.trans (neg_le_abs _)

/-- 0 or between two powers of two. -/
def Between (k e : Nat) (x : ℝ) : Prop := x = 0 ∨ ((2 ^ k)⁻¹ ≤ |x| ∧ |x| ≤ 2 ^ e)

theorem Between.inRange {k e : Nat} {x : ℝ} (h : Between k e x) (hk : k ≤ 1022) (he : e ≤ 1023) : InRange x := by
  rcases h with rfl | ⟨h1, h2⟩
  · exact ⟨by simp, Or.inr ⟨0, by simp⟩⟩
  · exact ⟨h2.trans (pow_le_of he), Or.inl ((inv_anti₀ (by positivity) (pow_le_of hk)).trans h1)⟩

theorem Between.rnd {k e : Nat} {x : ℝ} (h : Between k e x) : Between k e (binary64 x) := by
  rcases h with rfl | ⟨h1, h2⟩
  · exact Or.inl binary64_floatRounding.zero
  · exact Or.inr ⟨binary64_ge h1, binary64_abs_le h2⟩

theorem Between.mul {k e k' e' : Nat} {x x' : ℝ} (h : Between k e x) (h' : Between k' e' x') : Between (k + k') (e + e') (x * x') := by
  rcases h with rfl | ⟨h1, h2⟩
  · left; simp
  rcases h' with rfl | ⟨h1', h2'⟩
  · left; simp
  right
  rw [abs_mul, pow_add, pow_add, mul_inv]
  exact ⟨mul_le_mul h1 h1' (by positivity) (abs_nonneg _), mul_le_mul h2 h2' (abs_nonneg _) (by positivity)⟩

theorem Between.inv {k e : Nat} {x : ℝ} (h : Between k e x) : Between e k x⁻¹ := by
  rcases h with rfl | ⟨h1, h2⟩
  · left; simp
  right
  have hp : 0 < |x| := lt_of_lt_of_le (by positivity) h1
  rw [abs_inv]
  exact ⟨inv_anti₀ hp h2, (inv_le_comm₀ (by positivity) hp).1 h1⟩

theorem Between.grid {k e : Nat} {x : ℝ} (h : Between k e x) : OnGrid (k + 52) e (binary64 x) := by
  rcases h with rfl | ⟨h1, h2⟩
  · rw [binary64_floatRounding.zero]; exact OnGrid.zero
  · exact dyadic_rnd_of_ge h1 h2

theorem double_onGrid {x : ℝ} {e : Nat} (h : IsBinary64 x) (hb : |x| ≤ 2 ^ e) : OnGrid 1074 e x := ⟨isBinary64_grid h, hb⟩

theorem iF_inRange {x : ℝ} (h : InRange x) : iF (.fin x) = .fin (binary64 x) := ieee64_inRange h

theorem _root_.Mlp.Spec.Moderate.between {a m s : ℝ} (h : Moderate a m s) : Between 250 251 (a - m) := by
  rcases h.difference with rfl | h1
  · left; simp
  · refine Or.inr ⟨h1, (abs_sub a m).trans ?_⟩
    rw [pow_succ, mul_two]
    exact add_le_add h.target.2 h.mean.2

theorem _root_.Mlp.Spec.Moderate.diff {a m s : ℝ} (h : Moderate a m s) : iF (Flt.sub (.fin a) (.fin m)) = .fin (binary64 (a - m)) := by
  rw [Flt.sub_fin, iF_inRange (h.between.inRange (by norm_num) (by norm_num))]

theorem moderate_abs {a m s : ℝ} (h : Moderate a m s) : Paper.fabs (iF (Flt.sub (.fin a) (.fin m))) = Paper.fabs (rF binary64 (Flt.sub (.fin a) (.fin m))) := by
  rw [h.diff, Flt.sub_fin]; rfl

theorem moderate_square {a m s : ℝ} (h : Moderate a m s) : iF ((iF (Flt.sub (.fin a) (.fin m))).mul (iF (Flt.sub (.fin a) (.fin m)))) =
    rF binary64 ((rF binary64 (Flt.sub (.fin a) (.fin m))).mul (rF binary64 (Flt.sub (.fin a) (.fin m)))) := by
  rw [h.diff, Flt.mul_fin, iF_inRange ((h.between.rnd.mul h.between.rnd).inRange (by norm_num) (by norm_num)), Flt.sub_fin]
  rfl

theorem moderate_log (hb : L.rnd = binary64) {a m s : ℝ} (h : Moderate a m s) (hc : IsBinary64 (normLogCR L) ∧ |normLogCR L| ≤ 2 ^ 10)
    (hl : IsBinary64 (L.log s) ∧ |L.log s| ≤ 2 ^ 10) : normLogpdfI L (.fin a) (.fin m) (.fin s) = normLogpdfR L (.fin a) (.fin m) (.fin s) := by
  have hpos : 0 < s := lt_of_lt_of_le (by positivity) h.std.1
  unfold normLogpdfI normLogpdfR
  dsimp only
  rw [hb, h.diff, Flt.sub_fin]
  simp only [flogR, if_pos hpos, rF]
  have bs : Between 250 250 s := Or.inr (by rw [abs_of_pos hpos]; exact h.std)
  have bz : Between 500 501 (binary64 (a - m) / s) := by rw [div_eq_mul_inv]; exact h.between.rnd.mul bs.inv
  rw [Flt.div_fin hpos.ne', iF_inRange (bz.inRange (by norm_num) (by norm_num))]
  have bq := bz.rnd.mul bz.rnd
  simp only []
  rw [Flt.mul_fin, iF_inRange (bq.inRange (by norm_num) (by norm_num))]
  simp only [Flt.neg]
  have bt : Between 1001 1002 (-binary64 (binary64 (binary64 (a - m) / s) * binary64 (binary64 (a - m) / s)) / 2) := by
    have b2 : Between 1 0 (-2⁻¹ : ℝ) := Or.inr (by rw [abs_neg, abs_of_pos (by norm_num)]; norm_num)
    have := bq.rnd.mul b2
    rwa [mul_neg, ← div_eq_mul_inv, ← neg_div] at this
  rw [Flt.div_fin two_ne_zero, iF_inRange (bt.inRange (by norm_num) (by norm_num))]
  simp only []
  have gu := (bt.grid.mono (k' := 1074) (e' := 1002) (by norm_num) le_rfl).sub ((double_onGrid hc.1 hc.2).mono (e' := 1002) le_rfl (by norm_num))
  rw [Flt.sub_fin, iF_inRange (gu.inRange le_rfl (by norm_num))]
  simp only []
  have gw := gu.rnd.sub ((double_onGrid hl.1 hl.2).mono (e' := 1003) le_rfl (by norm_num))
  rw [Flt.sub_fin, iF_inRange (gw.inRange le_rfl (by norm_num))]

/-- **C149, agreement.**  If targets, means and standard deviations are doubles of moderate size, and so are the differences that are not 0, the exponent limits do not matter: the
standard losses are those of floating point numbers with 53 bits and any exponent, and the results of C122 on their accuracy hold for them. -/
theorem C149_agree (hb : L.rnd = binary64) {y mu std : Arr} {n : Nat} (h : RegrInput y mu std n) (hy : y.Ok) (hm : mu.Ok) (hs : std.Ok)
    (hmod : ∀ (i : Nat) (a m s : ℝ), y.data[i]? = some (.fin a) → mu.data[i]? = some (.fin m) → std.data[i]? = some (.fin s) → Moderate a m s)
    (hc : IsBinary64 (normLogCR L) ∧ |normLogCR L| ≤ 2 ^ 10) (hl : ∀ s : ℝ, Flt.fin s ∈ std.data → IsBinary64 (L.log s) ∧ |L.log s| ≤ 2 ^ 10) :
    List.Forall₂ (fun p q => p.1 = q.1 ∧ p.2 y mu std = q.2 y mu std) (stdRegrLossI L) (stdRegrLossR L) := by
  obtain ⟨l1, l2, l3⟩ := regrInput_lengths h hy hm hs
  have hv := (C85_accepts ..).2 h
  have key : ∀ f g : Flt ℝ → Flt ℝ × Flt ℝ → Flt ℝ, (∀ a m s, Moderate a m s → Flt.fin s ∈ std.data → f (.fin a) (.fin m, .fin s) = g (.fin a) (.fin m, .fin s)) →
      List.zipWith f y.data (mu.data.zip std.data) = List.zipWith g y.data (mu.data.zip std.data) := by
    intro f g hfg
    refine List.ext_getElem (by simp) fun i hi _ => ?_
    have hin : i < n := by
      rw [List.length_zipWith, l1] at hi
      omega
    obtain ⟨a, ha⟩ := h.numbers _ (Or.inl (List.getElem_mem (l1.symm ▸ hin : i < y.data.length)))
    obtain ⟨m, hm⟩ := h.numbers _ (Or.inr (Or.inl (List.getElem_mem (l2.symm ▸ hin : i < mu.data.length))))
    obtain ⟨s, hs⟩ := h.numbers _ (Or.inr (Or.inr (List.getElem_mem (l3.symm ▸ hin : i < std.data.length))))
    have e1 : y.data[i]? = some (.fin a) := by rw [← ha, List.getElem?_eq_getElem]
    have e2 : mu.data[i]? = some (.fin m) := by rw [← hm, List.getElem?_eq_getElem]
    have e4 : std.data[i]? = some (.fin s) := by rw [← hs, List.getElem?_eq_getElem]
    rw [List.getElem_zipWith, List.getElem_zipWith, List.getElem_zip, ha, hm, hs]
    exact hfg a m s (hmod i a m s e1 e2 e4) (List.mem_of_getElem? e4)
  have drop : ∀ f : Flt ℝ → Flt ℝ → Flt ℝ, List.zipWith f y.data mu.data = List.zipWith (fun a ms => f a ms.1) y.data (mu.data.zip std.data) := by
    intro f
    have : mu.data = (mu.data.zip std.data).map Prod.fst := by rw [List.map_fst_zip (by omega)]
    conv_lhs => rw [this]
    rw [List.zipWith_map_right]
  refine .cons ⟨rfl, ?_⟩ (.cons ⟨rfl, ?_⟩ (.cons ⟨rfl, ?_⟩ .nil))
  · simp only [logLossI, logLossR, hv, ok_bind]
    exact congrArg pure (key _ _ fun a m s hmo hs => congrArg Flt.neg (moderate_log hb hmo hc (hl s hs)))
  · simp only [squareLossI, squareLossR, hv, ok_bind, hb]
    rw [drop, drop]
    exact congrArg pure (key _ _ fun a m s hmo _ => moderate_square hmo)
  · simp only [absLossI, absLossR, hv, ok_bind, hb]
    rw [drop, drop]
    exact congrArg pure (key _ _ fun a m s hmo _ => moderate_abs hmo)

/-- A double between 1/2 and 2 that is not 1 is away from 1. -/
theorem double_near_one {s : ℝ} (h : IsBinary64 s) (h1 : 1 / 2 ≤ s) (hne : s ≠ 1) : 1 / 2 ^ 53 ≤ |s - 1| := by
  have hp : 0 < s := by linarith
  rcases le_total s 2 with h2 | h2
  · have hb : binary64 s = s := (C127_doubles.2 h).facts.1
    have hg := dyadic_rnd_of_ge (x := s) (j := 1) (e := 1) (by rw [abs_of_pos hp]; norm_num; linarith) (by rw [abs_of_pos hp]; linarith)
    rw [hb] at hg
    obtain ⟨k, hk⟩ := hg.1
    have e : (s - 1) * 2 ^ 53 = ((k - 2 ^ 53 : Int) : ℝ) := by
      push_cast
      rw [← hk]; ring
    have h0 : k - 2 ^ 53 ≠ 0 := by
      intro h0
      rw [h0, Int.cast_zero] at e
      exact hne (by linarith [(mul_eq_zero.1 e).resolve_right (by positivity)])
    have h3 : (1 : ℝ) ≤ |((k - 2 ^ 53 : Int) : ℝ)| := by exact_mod_cast Int.one_le_abs h0
    rw [← e, abs_mul, abs_of_pos (a := (2 : ℝ) ^ 53) (by positivity)] at h3
    rwa [div_le_iff₀ (by positivity)]
  · rw [abs_of_nonneg (by linarith)]
    have : (1 : ℝ) / 2 ^ 53 ≤ 1 := by norm_num
    linarith

/-- The logarithm of a double other than 1 is away from 0. -/
theorem log_double_ge {s : ℝ} (hs : 0 < s) (h : IsBinary64 s) (hne : s ≠ 1) : 1 / 2 ^ 54 ≤ |Real.log s| := by
  rcases lt_or_ge s (1 / 2) with h1 | h1
  · have := Real.log_le_sub_one_of_pos hs
    rw [abs_of_nonpos (by linarith)]
    have : (1 : ℝ) / 2 ^ 54 ≤ 1 / 2 := by norm_num
    linarith
  · have hd := double_near_one h h1 hne
    rcases le_total s 1 with h2 | h2
    · rw [abs_of_nonpos (by linarith)] at hd
      have := Real.log_le_sub_one_of_pos hs
      rw [abs_of_nonpos (by linarith)]
      have : (1 : ℝ) / 2 ^ 54 ≤ 1 / 2 ^ 53 := by norm_num
      linarith
    · rw [abs_of_nonneg (by linarith)] at hd
      have h3 := Real.one_sub_inv_le_log_of_pos hs
      have h4 : (1 : ℝ) / 2 ^ 54 ≤ 1 - s⁻¹ := by
        have e : 1 - s⁻¹ = (s - 1) / s := by field_simp
        rw [e, le_div_iff₀ hs]
        rcases le_total s 2 with h5 | h5
        · have : (1 : ℝ) / 2 ^ 54 * s ≤ 1 / 2 ^ 54 * 2 := by gcongr
          norm_num at this hd ⊢
          linarith
        · norm_num
          linarith
      exact (h4.trans h3).trans (le_abs_self _)

theorem double_of_fixed {x : ℝ} (h : InRange x) (hx : binary64 x = x) : IsBinary64 x :=
  C127_doubles.1 (by
    have := ieee64_inRange h
    rwa [hx] at this)

/-- **C149, doubles of the library.**  The logarithms of a library with correct rounding are doubles. -/
theorem C149_library_doubles {std : Arr} (hd : Doubles std) (hp : ∀ s : ℝ, Flt.fin s ∈ std.data → 0 < s) :
    IsBinary64 (normLogCR doubleLib) ∧ ∀ s : ℝ, Flt.fin s ∈ std.data → IsBinary64 (doubleLib.log s) := by
  constructor
  · refine double_of_fixed ?_ (binary64_floatRounding.idem _)
    have h1 := normLogCR_double
    have h2 : Real.log (2 * Real.pi) ≤ 2 * Real.pi - 1 := Real.log_le_sub_one_of_pos (by positivity)
    have h3 : 1 - (2 * Real.pi)⁻¹ ≤ Real.log (2 * Real.pi) := Real.one_sub_inv_le_log_of_pos (by positivity)
    have h4 := Real.pi_lt_four
    have h5 := Real.pi_gt_three
    have h6 : (2 * Real.pi)⁻¹ ≤ 1 / 6 := by
      rw [inv_le_comm₀ (by positivity) (by norm_num)]; norm_num; linarith
    have h7 : 1 / 10 ^ 15 * (Real.log (2 * Real.pi) / 2) ≤ 1 / 2 * (Real.log (2 * Real.pi) / 2) := by
      refine mul_le_mul_of_nonneg_right (by norm_num) (by linarith)
    rw [_root_.abs_le] at h1
    have b : Between 3 10 (normLogCR doubleLib) := by
      right
      rw [abs_of_nonneg (by linarith)]
      constructor <;> norm_num <;> linarith
    exact b.inRange (by norm_num) (by norm_num)
  · intro s hs
    refine double_of_fixed ?_ (binary64_floatRounding.idem _)
    have hpos := hp s hs
    have b : Between 54 10 (Real.log s) := by
      rcases eq_or_ne s 1 with rfl | hne
      · left; simp
      · refine Or.inr ⟨?_, log_double_le hpos (hd s hs)⟩
        rw [← one_div]
        exact log_double_ge hpos (hd s hs) hne
    exact b.rnd.inRange (by norm_num) (by norm_num)

/-- **C149, accuracy.**  For doubles of moderate size, the three losses in double precision, with a library that rounds correctly, are accurate to a relative error of
`4e-16`, of `2e-16`, and of `2e-15` of the sum of the absolute terms of the log loss. -/
theorem C149_accuracy {y mu std : Arr} {n : Nat} (h : RegrInput y mu std n) (hy : y.Ok) (hm : mu.Ok) (hs : std.Ok) (hd : Doubles std)
    (hmod : ∀ (i : Nat) (a m s : ℝ), y.data[i]? = some (.fin a) → mu.data[i]? = some (.fin m) → std.data[i]? = some (.fin s) → Moderate a m s) :
    (∃ l, squareLossI y mu std = .ok l ∧ PerPointR (fun a m _ v => 0 ≤ v ∧ (v = 0 ↔ a = m) ∧ |v - (a - m) ^ 2| ≤ 4 / 10 ^ 16 * (a - m) ^ 2) y mu std l) ∧
    (∃ l, absLossI y mu std = .ok l ∧ PerPointR (fun a m _ v => 0 ≤ v ∧ (v = 0 ↔ a = m) ∧ |v - abs (a - m)| ≤ 2 / 10 ^ 16 * abs (a - m)) y mu std l) ∧
    ∃ l, logLossI doubleLib y mu std = .ok l ∧ PerPointR (fun a m s v =>
      |v - (Real.log s + Real.log (2 * Real.pi) / 2 + (a - m) ^ 2 / (2 * s ^ 2))| ≤
        2 / 10 ^ 15 * (|Real.log s| + Real.log (2 * Real.pi) / 2 + (a - m) ^ 2 / (2 * s ^ 2))) y mu std l := by
  have hp : ∀ s : ℝ, Flt.fin s ∈ std.data → 0 < s := fun s hs' => by
    have := h.positive _ hs'
    rwa [Flt.fin_lt_fin] at this
  obtain ⟨c1, l1⟩ := C149_library hd hp
  obtain ⟨c2, l2⟩ := C149_library_doubles hd hp
  have hag := C149_agree (L := doubleLib) rfl h hy hm hs hmod ⟨c2, c1⟩ fun s hs' => ⟨l2 s hs', l1 s hs'⟩
  simp only [stdRegrLossI, stdRegrLossR, List.forall₂_cons, true_and, List.Forall₂.nil, and_true] at hag
  obtain ⟨hlog, hsq, habs⟩ := hag
  rw [hlog, hsq, habs]
  refine ⟨?_, ?_, C122_log_double h hy hm hs⟩
  · obtain ⟨l, e, e1, e2⟩ := C122_square doubleLib_good (u := 1 / 2 ^ 53) (by norm_num) binary64_relError h hy hm hs
    refine ⟨l, e, e1, fun i a m s f1 f2 f3 => ?_⟩
    obtain ⟨v, g1, g2, g3, g4⟩ := e2 i a m s f1 f2 f3
    exact ⟨v, g1, g2, g3, g4.trans (mul_le_mul_of_nonneg_right (by norm_num) (sq_nonneg _))⟩
  · obtain ⟨l, e, e1, e2⟩ := C122_abs doubleLib_good (u := 1 / 2 ^ 53) binary64_relError h hy hm hs
    refine ⟨l, e, e1, fun i a m s f1 f2 f3 => ?_⟩
    obtain ⟨v, g1, g2, g3, g4⟩ := e2 i a m s f1 f2 f3
    exact ⟨v, g1, g2, g3, g4.trans (mul_le_mul_of_nonneg_right (by norm_num) (abs_nonneg _))⟩

/-- A target of 3, a mean of 1 and a standard deviation of 2 are of moderate size, so that their losses are accurate. -/
example : ∃ l, logLossI doubleLib (realArr [3]) (realArr [1]) (realArr [2]) = .ok l ∧ PerPointR (fun a m s v =>
      |v - (Real.log s + Real.log (2 * Real.pi) / 2 + (a - m) ^ 2 / (2 * s ^ 2))| ≤
        2 / 10 ^ 15 * (|Real.log s| + Real.log (2 * Real.pi) / 2 + (a - m) ^ 2 / (2 * s ^ 2))) (realArr [3]) (realArr [1]) (realArr [2]) l := by
  have hsmall : ∀ k : Int, |k| < 2 ^ 53 → IsBinary64 ((k : Int) : ℝ) := fun k hk => ⟨k, 0, hk, by norm_num, by norm_num, by simp⟩
  have h2 : IsBinary64 (2 : ℝ) := by exact_mod_cast hsmall 2 (by norm_num)
  refine (C149_accuracy (singleton_input 3 1 two_pos) (realArr_ok _) (realArr_ok _) (realArr_ok _) (singleton_doubles h2) ?_).2.2
  intro i a m s h1 h2 h3
  cases i with
  | zero =>
    simp [realArr] at h1 h2 h3
    subst h1 h2 h3
    exact ⟨⟨by exact_mod_cast hsmall 3 (by norm_num), by norm_num⟩, ⟨by exact_mod_cast hsmall 1 (by norm_num), by norm_num⟩, by norm_num, by norm_num⟩
  | succ i => simp [realArr] at h1

end Mlp.Props
