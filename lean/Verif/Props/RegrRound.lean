import Verif.Model.LossRound
import Verif.Props.RegrBench
import Verif.Props.BenchRound
import Mathlib.Analysis.Real.Pi.Bounds

/-! # Property C122: regression in floating point arithmetic, the losses -/

namespace Mlp.Props
open Mlp.Util Mlp.Spec Mlp.Regr Mlp.LossR Mlp.PaperR Mlp.PerfR Mlp.Round Mlp.Lemmas

variable {L : Lib ℝ} {u : ℝ}

/-- The result has one number for each sample, related to its target, its mean and its standard deviation. -/
def PerPointR (R : ℝ → ℝ → ℝ → ℝ → Prop) (y mu std : Arr) (l : List (Flt ℝ)) : Prop :=
  l.length = y.data.length ∧ ∀ (i : Nat) (a m s : ℝ), y.data[i]? = some (.fin a) → mu.data[i]? = some (.fin m) →
    std.data[i]? = some (.fin s) → ∃ v : ℝ, l[i]? = some (.fin v) ∧ R a m s v

/-- The rounded square loss of a point. -/
def squareAt (L : Lib ℝ) (a m : ℝ) : ℝ := L.rnd (L.rnd (a - m) * L.rnd (a - m))

/-- The rounded log loss of a point. -/
noncomputable def logAt (L : Lib ℝ) (a m s : ℝ) : ℝ :=
  -L.rnd (L.rnd (L.rnd (-L.rnd (L.rnd (L.rnd (a - m) / s) * L.rnd (L.rnd (a - m) / s)) / 2) - normLogCR L) - L.log s)

theorem perPointR_iff {f : ℝ → ℝ → ℝ → ℝ} {R : ℝ → ℝ → ℝ → ℝ → Prop} {y mu std : Arr} {l : List (Flt ℝ)} (h : PerPoint f y mu std l)
    (hR : ∀ a m s, Flt.fin s ∈ std.data → R a m s (f a m s)) : PerPointR R y mu std l :=
  ⟨h.1, fun i a m s h1 h2 h3 => ⟨_, h.2 i a m s h1 h2 h3, hR a m s (List.mem_of_getElem? h3)⟩⟩

theorem squareR_value (L : Lib ℝ) {y mu std : Arr} {n : Nat} (h : RegrInput y mu std n) (hy : y.Ok) (hm : mu.Ok) (hs : std.Ok) :
    ∃ l, squareLossR L y mu std = .ok l ∧ PerPoint (fun a m _ => squareAt L a m) y mu std l := by
  refine ⟨List.zipWith (fun a b => rF L.rnd ((rF L.rnd (Flt.sub a b)).mul (rF L.rnd (Flt.sub a b)))) y.data mu.data, ?_, perPoint_zip2 h hy hm hs ?_⟩
  · unfold squareLossR; rw [(C85_accepts ..).2 h, ok_bind]; rfl
  · intro a m s; rw [Flt.sub_fin]; simp only [rF, Flt.mul_fin]; rfl

theorem absR_value (L : Lib ℝ) {y mu std : Arr} {n : Nat} (h : RegrInput y mu std n) (hy : y.Ok) (hm : mu.Ok) (hs : std.Ok) :
    ∃ l, absLossR L y mu std = .ok l ∧ PerPoint (fun a m _ => |L.rnd (a - m)|) y mu std l := by
  refine ⟨List.zipWith (fun a b => Paper.fabs (rF L.rnd (Flt.sub a b))) y.data mu.data, ?_, perPoint_zip2 h hy hm hs ?_⟩
  · unfold absLossR; rw [(C85_accepts ..).2 h, ok_bind]; rfl
  · intro a m s; rw [Flt.sub_fin]; rfl

theorem logR_value (L : Lib ℝ) {y mu std : Arr} {n : Nat} (h : RegrInput y mu std n) (hy : y.Ok) (hm : mu.Ok) (hs : std.Ok) :
    ∃ l, logLossR L y mu std = .ok l ∧ PerPoint (fun a m s => logAt L a m s) y mu std l := by
  obtain ⟨l1, l2, l3⟩ := regrInput_lengths h hy hm hs
  refine ⟨List.zipWith (fun (a : Flt ℝ) (ms : Flt ℝ × Flt ℝ) => (normLogpdfR L a ms.1 ms.2).neg) y.data
    (mu.data.zip std.data), ?_, ?_, ?_⟩
  · unfold logLossR; rw [(C85_accepts ..).2 h, ok_bind]; rfl
  · rw [List.length_zipWith, List.length_zip]; omega
  · intro i a m s ha hm' hs'
    have hpos : 0 < s := by
      have := h.positive _ (List.mem_of_getElem? hs')
      rwa [Flt.fin_lt_fin] at this
    have hz : (mu.data.zip std.data)[i]? = some (.fin m, .fin s) := by
      rw [List.zip, List.getElem?_zipWith, hm', hs']
    rw [List.getElem?_zipWith, ha, hz]
    simp only []
    congr 1
    unfold normLogpdfR logAt
    simp only [Flt.sub_fin, rF, Flt.div_fin hpos.ne', Flt.mul_fin, flogR, if_pos hpos]
    have e : ∀ x : ℝ, (Flt.fin x).neg = .fin (-x) := fun _ => rfl
    rw [e, Flt.div_fin (by norm_num)]
    simp only [rF, Flt.sub_fin, e]

/-- **C122, acceptance.**  The rounded losses raise on the same input as the exact ones: everything but vectors of numbers of one length with positive
standard deviations. -/
theorem C122_reject {y mu std : Arr} (h : ¬ ∃ n, RegrInput y mu std n) :
    ∀ loss ∈ [squareLossR L, absLossR L, logLossR L],
      loss y mu std = .error (if y.shape.length = 1 then .assertion else .valueError) := by
  intro loss hl
  simp only [List.mem_cons, List.not_mem_nil, or_false] at hl
  rcases hl with rfl | rfl | rfl
  · unfold squareLossR; rw [validate_error h]; rfl
  · unfold absLossR; rw [validate_error h]; rfl
  · unfold logLossR; rw [validate_error h]; rfl

theorem relError_factor {rnd : ℝ → ℝ} (he : RelError u rnd) (x : ℝ) : ∃ d, |d| ≤ u ∧ rnd x = x * (1 + d) := by
  by_cases hx : x = 0
  · have := he 0
    rw [hx]
    refine ⟨0, ?_, ?_⟩
    · rw [abs_zero]
      have h1 := he 1
      have : (0 : ℝ) ≤ u * |1| := le_trans (abs_nonneg _) h1
      simpa using this
    · simpa using this
  · refine ⟨(rnd x - x) / x, ?_, by field_simp; ring⟩
    rw [abs_div, div_le_iff₀ (abs_pos.2 hx)]
    exact he x

theorem factor_error {k : Nat} {d : ℝ} {ds : List ℝ} (hds : ds.length ≤ k) (hu : 0 ≤ u) (h : ∀ d ∈ ds, |d| ≤ u)
    (e : 1 + d = (ds.map fun x => 1 + x).prod) : |d| ≤ (1 + u) ^ k - 1 := by
  have key : ∀ ds : List ℝ, (∀ d ∈ ds, |d| ≤ u) → |(ds.map fun x => 1 + x).prod - 1| ≤ (1 + u) ^ ds.length - 1 := by
    intro ds
    induction ds with
    | nil => intro _; simp
    | cons x ds ih =>
      intro h
      have h1 := ih fun d hd => h d (by simp [hd])
      have h2 := h x (by simp)
      rw [List.map_cons, List.prod_cons, List.length_cons, pow_succ]
      set P := (ds.map fun x => 1 + x).prod
      have e : (1 + x) * P - 1 = (1 + x) * (P - 1) + x := by ring
      rw [e]
      have h3 : |1 + x| ≤ 1 + u := (abs_add_le _ _).trans (by rw [abs_one]; linarith)
      have h4 : 0 ≤ (1 + u) ^ ds.length - 1 := le_trans (abs_nonneg _) h1
      calc |(1 + x) * (P - 1) + x| ≤ |(1 + x) * (P - 1)| + |x| := abs_add_le _ _
        _ = |1 + x| * |P - 1| + |x| := by rw [abs_mul]
        _ ≤ (1 + u) * ((1 + u) ^ ds.length - 1) + u := by gcongr
        _ = (1 + u) ^ ds.length * (1 + u) - 1 := by ring
  have h1 := key ds h
  rw [← e] at h1
  have : (1 + u) ^ ds.length ≤ (1 + u) ^ k := pow_le_pow_right₀ (by linarith) hds
  have e2 : 1 + d - 1 = d := by ring
  rw [e2] at h1
  linarith

/-- **C122, absolute loss.**  It is a number that is at least 0, 0 exactly for a perfect mean, and correct up to one rounding. -/
theorem C122_abs (hL : GoodLib L) (he : RelError u L.rnd) {y mu std : Arr} {n : Nat} (h : RegrInput y mu std n) (hy : y.Ok) (hm : mu.Ok) (hs : std.Ok) :
    ∃ l, absLossR L y mu std = .ok l ∧ PerPointR (fun a m _ v => 0 ≤ v ∧ (v = 0 ↔ a = m) ∧ |v - abs (a - m)| ≤ u * abs (a - m)) y mu std l := by
  obtain ⟨l, h1, h2⟩ := absR_value L h hy hm hs
  refine ⟨l, h1, perPointR_iff h2 fun a m s _ => ⟨abs_nonneg _, ?_, ?_⟩⟩
  · rw [abs_eq_zero, hL.rnd.eq_zero_iff, sub_eq_zero]
  · exact (abs_abs_sub_abs_le_abs_sub _ _).trans (he _)

/-- **C122, square loss.**  It is a number that is at least 0, 0 exactly for a perfect mean, and correct up to three roundings. -/
theorem C122_square (hL : GoodLib L) (hu : 0 ≤ u) (he : RelError u L.rnd) {y mu std : Arr} {n : Nat} (h : RegrInput y mu std n) (hy : y.Ok) (hm : mu.Ok) (hs : std.Ok) :
    ∃ l, squareLossR L y mu std = .ok l ∧
      PerPointR (fun a m _ v => 0 ≤ v ∧ (v = 0 ↔ a = m) ∧ |v - (a - m) ^ 2| ≤ ((1 + u) ^ 3 - 1) * (a - m) ^ 2) y mu std l := by
  obtain ⟨l, h1, h2⟩ := squareR_value L h hy hm hs
  refine ⟨l, h1, perPointR_iff h2 fun a m s _ => ⟨hL.rnd.nonneg (mul_self_nonneg _), ?_, ?_⟩⟩
  · unfold squareAt
    rw [hL.rnd.eq_zero_iff, mul_self_eq_zero, hL.rnd.eq_zero_iff, sub_eq_zero]
  · unfold squareAt
    obtain ⟨d, hd, e⟩ := relError_factor he (a - m)
    obtain ⟨d', hd', e'⟩ := relError_factor he (L.rnd (a - m) * L.rnd (a - m))
    have := factor_error (k := 3) (d := (1 + d) * ((1 + d) * ((1 + d') * 1)) - 1) (ds := [d, d, d']) (by simp) hu (by
      intro x hx
      simp only [List.mem_cons, List.not_mem_nil, or_false] at hx
      rcases hx with rfl | rfl | rfl <;> assumption) (by simp)
    have e3 : L.rnd (L.rnd (a - m) * L.rnd (a - m)) - (a - m) ^ 2 = ((1 + d) * ((1 + d) * ((1 + d') * 1)) - 1) * (a - m) ^ 2 := by
      rw [e', e]; ring
    rw [e3, abs_mul, abs_of_nonneg (sq_nonneg (a - m))]
    exact mul_le_mul_of_nonneg_right this (sq_nonneg _)

/-- **C122, relation.**  Every square loss is the rounded square of the absolute loss. -/
theorem C122_square_abs (L : Lib ℝ) {y mu std : Arr} {n : Nat} (h : RegrInput y mu std n) (hy : y.Ok) (hm : mu.Ok) (hs : std.Ok) :
    ∃ S A : List ℝ, squareLossR L y mu std = .ok (finVec S) ∧ absLossR L y mu std = .ok (finVec A) ∧ A.length = n ∧
      S = A.map fun (v : ℝ) => L.rnd (v * v) := by
  obtain ⟨l1, l2, l3⟩ := regrInput_lengths h hy hm hs
  obtain ⟨S, s1, s2⟩ := squareR_value L h hy hm hs
  obtain ⟨A, a1, a2⟩ := absR_value L h hy hm hs
  have hpt : ∀ i, i < n → ∃ a m s, y.data[i]? = some (.fin a) ∧ mu.data[i]? = some (.fin m) ∧ std.data[i]? = some (.fin s) := by
    intro i hi
    obtain ⟨a, ha⟩ := h.numbers _ (Or.inl (List.getElem_mem (l1.symm ▸ hi : i < y.data.length)))
    obtain ⟨m, hm'⟩ := h.numbers _ (Or.inr (Or.inl (List.getElem_mem (l2.symm ▸ hi : i < mu.data.length))))
    obtain ⟨s, hs'⟩ := h.numbers _ (Or.inr (Or.inr (List.getElem_mem (l3.symm ▸ hi : i < std.data.length))))
    exact ⟨a, m, s, by rw [← ha, List.getElem?_eq_getElem], by rw [← hm', List.getElem?_eq_getElem], by rw [← hs', List.getElem?_eq_getElem]⟩
  have hAl : A.length = n := a2.1.trans l1
  have hSl : S.length = n := s2.1.trans l1
  obtain ⟨as, rfl⟩ := exists_finVec (l := A) (by
    rw [List.all_eq_true]
    intro v hv
    obtain ⟨i, hi, rfl⟩ := List.getElem_of_mem hv
    obtain ⟨a, m, s, e1, e2, e3⟩ := hpt i (hAl ▸ hi)
    have := a2.2 i a m s e1 e2 e3
    rw [List.getElem?_eq_getElem hi, Option.some.injEq] at this
    rw [this]; rfl)
  have has : as.length = n := by simpa [finVec] using hAl
  refine ⟨as.map fun (v : ℝ) => L.rnd (v * v), as, ?_, a1, has, rfl⟩
  rw [s1]
  congr 1
  refine List.ext_getElem (by simp [finVec, hSl, has]) fun i hi hi' => ?_
  obtain ⟨a, m, s, e1, e2, e3⟩ := hpt i (hSl ▸ hi)
  have f1 := s2.2 i a m s e1 e2 e3
  have f2 := a2.2 i a m s e1 e2 e3
  rw [List.getElem?_eq_getElem hi, Option.some.injEq] at f1
  have hia : i < as.length := by rw [has]; exact hSl ▸ hi
  rw [f1]
  have f2' : as[i] = |L.rnd (a - m)| := by
    simpa [finVec, hia] using f2
  simp only [finVec, List.getElem_map, f2', abs_mul_abs_self]
  rfl

/-- The rounded difference depends on the distance only and grows with it. -/
theorem rnd_abs_mono {rnd : ℝ → ℝ} (hr : FloatRounding rnd) {x y : ℝ} (h : |x| ≤ |y|) : |rnd x| ≤ |rnd y| := by
  have key : ∀ x : ℝ, |rnd x| = rnd |x| := by
    intro x
    rcases le_total 0 x with hx | hx
    · rw [abs_of_nonneg hx, abs_of_nonneg (hr.nonneg hx)]
    · have : rnd x ≤ 0 := by have := hr.mono hx; rwa [hr.zero] at this
      rw [abs_of_nonpos hx, abs_of_nonpos this, hr.neg]
  rw [key, key]
  exact hr.mono h

theorem squareAt_mono (hL : GoodLib L) {a m a' m' : ℝ} (h : |a - m| ≤ |a' - m'|) : squareAt L a m ≤ squareAt L a' m' := by
  unfold squareAt
  refine hL.rnd.mono ?_
  rw [← abs_mul_abs_self, ← abs_mul_abs_self (L.rnd (a' - m'))]
  have := rnd_abs_mono hL.rnd h
  exact mul_self_le_mul_self (abs_nonneg _) this

theorem logAt_mono (hL : GoodLib L) {a m a' m' s : ℝ} (hs : 0 < s) (h : |a - m| ≤ |a' - m'|) : logAt L a m s ≤ logAt L a' m' s := by
  have h1 := rnd_abs_mono hL.rnd h
  have h2 : |L.rnd (L.rnd (a - m) / s)| ≤ |L.rnd (L.rnd (a' - m') / s)| := by
    refine rnd_abs_mono hL.rnd ?_
    rw [abs_div, abs_div]
    gcongr
  have h3 : L.rnd (a - m) / s = L.rnd (a - m) / s := rfl
  unfold logAt
  refine neg_le_neg (hL.rnd.mono (sub_le_sub_right (hL.rnd.mono (sub_le_sub_right (hL.rnd.mono ?_) _)) _))
  have h4 : L.rnd (L.rnd (L.rnd (a - m) / s) * L.rnd (L.rnd (a - m) / s)) ≤ L.rnd (L.rnd (L.rnd (a' - m') / s) * L.rnd (L.rnd (a' - m') / s)) := by
    refine hL.rnd.mono ?_
    rw [← abs_mul_abs_self, ← abs_mul_abs_self (L.rnd (L.rnd (a' - m') / s))]
    exact mul_self_le_mul_self (abs_nonneg _) h2
  linarith

/-- **C122, better means.**  If every mean is at least as close to its target as another prediction with the same standard deviations, none of the three computed
losses of any sample is larger, in spite of rounding.  In particular the targets themselves are the means with the least loss. -/
theorem C122_closer (hL : GoodLib L) {y mu mu' std : Arr} {n : Nat} (h : RegrInput y mu std n) (h' : RegrInput y mu' std n) (hy : y.Ok) (hm : mu.Ok) (hm' : mu'.Ok)
    (hs : std.Ok) (hc : ∀ (i : Nat) (a m m' : ℝ), y.data[i]? = some (.fin a) → mu.data[i]? = some (.fin m) → mu'.data[i]? = some (.fin m') → |a - m| ≤ |a - m'|) :
    ∀ loss ∈ [squareLossR L, absLossR L, logLossR L], ∃ l l', loss y mu std = .ok l ∧ loss y mu' std = .ok l' ∧ List.Forall₂ (· ≤ ·) l l' := by
  obtain ⟨l1, l2, l3⟩ := regrInput_lengths h hy hm hs
  obtain ⟨-, l2', -⟩ := regrInput_lengths h' hy hm' hs
  have key : ∀ (f : ℝ → ℝ → ℝ → ℝ), (∀ a m m' s, 0 < s → |a - m| ≤ |a - m'| → f a m s ≤ f a m' s) → ∀ l l',
      PerPoint f y mu std l → PerPoint f y mu' std l' → List.Forall₂ (· ≤ ·) l l' := by
    intro f hf l l' hl hl'
    refine List.forall₂_iff_get.2 ⟨by rw [hl.1, hl'.1], fun i hi hi' => ?_⟩
    have hin : i < n := by rw [← l1, ← hl.1]; exact hi
    obtain ⟨a, ha⟩ := h.numbers _ (Or.inl (List.getElem_mem (l1.symm ▸ hin : i < y.data.length)))
    obtain ⟨m, hm⟩ := h.numbers _ (Or.inr (Or.inl (List.getElem_mem (l2.symm ▸ hin : i < mu.data.length))))
    obtain ⟨m', hm'⟩ := h'.numbers _ (Or.inr (Or.inl (List.getElem_mem (l2'.symm ▸ hin : i < mu'.data.length))))
    obtain ⟨s, hs⟩ := h.numbers _ (Or.inr (Or.inr (List.getElem_mem (l3.symm ▸ hin : i < std.data.length))))
    have e1 : y.data[i]? = some (.fin a) := by rw [← ha, List.getElem?_eq_getElem]
    have e2 : mu.data[i]? = some (.fin m) := by rw [← hm, List.getElem?_eq_getElem]
    have e3 : mu'.data[i]? = some (.fin m') := by rw [← hm', List.getElem?_eq_getElem]
    have e4 : std.data[i]? = some (.fin s) := by rw [← hs, List.getElem?_eq_getElem]
    have hpos : 0 < s := by
      have := h.positive _ (List.mem_of_getElem? e4)
      rwa [Flt.fin_lt_fin] at this
    have f1 := hl.2 i a m s e1 e2 e4
    have f2 := hl'.2 i a m' s e1 e3 e4
    rw [List.getElem?_eq_getElem hi, Option.some.injEq] at f1
    rw [List.getElem?_eq_getElem hi', Option.some.injEq] at f2
    simp only [List.get_eq_getElem, f1, f2, Flt.fin_le_fin]
    exact hf a m m' s hpos (hc i a m m' e1 e2 e3)
  intro loss hl
  simp only [List.mem_cons, List.not_mem_nil, or_false] at hl
  rcases hl with rfl | rfl | rfl
  · obtain ⟨l, h1, h2⟩ := squareR_value L h hy hm hs
    obtain ⟨l', h1', h2'⟩ := squareR_value L h' hy hm' hs
    exact ⟨l, l', h1, h1', key (fun a m _ => squareAt L a m) (fun a m m' s _ hle => squareAt_mono hL hle) l l' h2 h2'⟩
  · obtain ⟨l, h1, h2⟩ := absR_value L h hy hm hs
    obtain ⟨l', h1', h2'⟩ := absR_value L h' hy hm' hs
    exact ⟨l, l', h1, h1', key (fun a m _ => |L.rnd (a - m)|) (fun a m m' s _ hle => rnd_abs_mono hL.rnd hle) l l' h2 h2'⟩
  · obtain ⟨l, h1, h2⟩ := logR_value L h hy hm hs
    obtain ⟨l', h1', h2'⟩ := logR_value L h' hy hm' hs
    exact ⟨l, l', h1, h1', key (fun a m s => logAt L a m s) (fun a m m' s hs hle => logAt_mono hL hs hle) l l' h2 h2'⟩

/-- **C122, log loss.**  If the logarithms have a relative error of at most `g`, where `1 + g` is at least `(1+u)^6`, the computed log loss is correct up to a relative error of
`(1+g)(1+u)^2 - 1` of its three terms. -/
theorem C122_log (hu : 0 ≤ u) (he : RelError u L.rnd) {g : ℝ} (hg : (1 + u) ^ 6 ≤ 1 + g)
    (hc : |normLogCR L - Real.log (2 * Real.pi) / 2| ≤ g * (Real.log (2 * Real.pi) / 2)) {y mu std : Arr} {n : Nat} (h : RegrInput y mu std n)
    (hy : y.Ok) (hm : mu.Ok) (hs : std.Ok) (hlog : ∀ s : ℝ, Flt.fin s ∈ std.data → |L.log s - Real.log s| ≤ g * |Real.log s|) :
    ∃ l, logLossR L y mu std = .ok l ∧ PerPointR (fun a m s v =>
      |v - (Real.log s + Real.log (2 * Real.pi) / 2 + (a - m) ^ 2 / (2 * s ^ 2))| ≤
        ((1 + g) * (1 + u) ^ 2 - 1) * (|Real.log s| + Real.log (2 * Real.pi) / 2 + (a - m) ^ 2 / (2 * s ^ 2))) y mu std l := by
  obtain ⟨l, h1, h2⟩ := logR_value L h hy hm hs
  refine ⟨l, h1, perPointR_iff h2 fun a m s hs' => ?_⟩
  have hpos : 0 < s := by
    have := h.positive _ hs'
    rwa [Flt.fin_lt_fin] at this
  have hl := hlog s hs'
  have hC : 0 ≤ Real.log (2 * Real.pi) / 2 := by
    have : (1 : ℝ) ≤ 2 * Real.pi := by linarith [Real.pi_gt_three]
    have := Real.log_nonneg this
    positivity
  have hg0 : 0 ≤ g := by
    have : (1 : ℝ) ≤ (1 + u) ^ 6 := one_le_pow₀ (by linarith)
    linarith
  unfold logAt
  set C := Real.log (2 * Real.pi) / 2
  set q := (a - m) ^ 2 / (2 * s ^ 2) with hq
  have hq0 : 0 ≤ q := by positivity
  -- the quadratic term
  obtain ⟨d1, b1, e1⟩ := relError_factor he (a - m)
  obtain ⟨d2, b2, e2⟩ := relError_factor he (L.rnd (a - m) / s)
  obtain ⟨d3, b3, e3⟩ := relError_factor he (L.rnd (L.rnd (a - m) / s) * L.rnd (L.rnd (a - m) / s))
  obtain ⟨d4, b4, e4⟩ := relError_factor he (-L.rnd (L.rnd (L.rnd (a - m) / s) * L.rnd (L.rnd (a - m) / s)) / 2)
  set Q := L.rnd (-L.rnd (L.rnd (L.rnd (a - m) / s) * L.rnd (L.rnd (a - m) / s)) / 2)
  have hQ : |Q + q| ≤ g * q := by
    set d := (1 + d1) * ((1 + d1) * ((1 + d2) * ((1 + d2) * ((1 + d3) * ((1 + d4) * 1))))) - 1 with hd
    have := factor_error (k := 6) (d := d) (ds := [d1, d1, d2, d2, d3, d4]) (by simp) hu (by
      intro x hx
      simp only [List.mem_cons, List.not_mem_nil, or_false] at hx
      rcases hx with rfl | rfl | rfl | rfl | rfl | rfl <;> assumption) (by simp [hd])
    have e : Q + q = -d * q := by
      rw [e4, e3, e2, e1, hq, hd]
      field_simp
      ring
    rw [e, abs_mul, abs_neg, abs_of_nonneg hq0]
    exact mul_le_mul_of_nonneg_right (this.trans (by linarith)) hq0
  obtain ⟨d5, b5, e5⟩ := relError_factor he (Q - normLogCR L)
  obtain ⟨d6, b6, e6⟩ := relError_factor he (L.rnd (Q - normLogCR L) - L.log s)
  rw [e6, e5]
  -- the three terms with their errors
  obtain ⟨x1, y1, f1⟩ : ∃ x, |x| ≤ g * q ∧ Q = -q + x := ⟨Q + q, hQ, by ring⟩
  obtain ⟨x2, y2, f2⟩ : ∃ x, |x| ≤ g * C ∧ normLogCR L = C + x := ⟨_, hc, by ring⟩
  obtain ⟨x3, y3, f3⟩ : ∃ x, |x| ≤ g * |Real.log s| ∧ L.log s = Real.log s + x := ⟨_, hl, by ring⟩
  rw [f1, f2, f3]
  set A := |Real.log s| + C + q with hA
  have hA0 : 0 ≤ A := by positivity
  have e : -(((-q + x1 - (C + x2)) * (1 + d5) - (Real.log s + x3)) * (1 + d6)) - (Real.log s + C + q) =
      (x2 - x1 + x3) * (1 + d6) + (Real.log s + C + q) * d6 + (q - x1 + (C + x2)) * d5 * (1 + d6) := by ring
  rw [e]
  have hlog' := abs_nonneg (Real.log s)
  have k1 : |x2 - x1 + x3| ≤ g * A := by
    have := abs_add_le (x2 - x1) x3
    have := abs_sub x2 x1
    rw [hA]
    linarith
  have k2 : |Real.log s + C + q| ≤ A := by
    have := abs_add_le (Real.log s + C) q
    have := abs_add_le (Real.log s) C
    rw [abs_of_nonneg hC] at this
    rw [abs_of_nonneg hq0] at *
    rw [hA]
    linarith
  have k3 : |q - x1 + (C + x2)| ≤ (1 + g) * A := by
    have a1 := abs_add_le (q - x1) (C + x2)
    have a2 := abs_sub q x1
    have a3 := abs_add_le C x2
    rw [abs_of_nonneg hq0] at a2
    rw [abs_of_nonneg hC] at a3
    rw [hA]
    have : 0 ≤ (1 + g) * |Real.log s| := by positivity
    linarith
  have k4 : |1 + d6| ≤ 1 + u := (abs_add_le _ _).trans (by rw [abs_one]; linarith)
  calc |(x2 - x1 + x3) * (1 + d6) + (Real.log s + C + q) * d6 + (q - x1 + (C + x2)) * d5 * (1 + d6)|
      ≤ |(x2 - x1 + x3) * (1 + d6)| + |(Real.log s + C + q) * d6| + |(q - x1 + (C + x2)) * d5 * (1 + d6)| :=
        (abs_add_le _ _).trans (add_le_add_left (abs_add_le _ _) _)
    _ = |x2 - x1 + x3| * |1 + d6| + |Real.log s + C + q| * |d6| + |q - x1 + (C + x2)| * |d5| * |1 + d6| := by simp only [abs_mul]
    _ ≤ g * A * (1 + u) + A * u + (1 + g) * A * u * (1 + u) := by gcongr
    _ = ((1 + g) * (1 + u) ^ 2 - 1) * A := by ring

end Mlp.Props
