import Verif.Props.StatsRound

/-!
# Property C128: `loss_summary_table` in floating point arithmetic with gradual underflow

The theorems C108 and C109 of `Verif/Props/TableRound.lean` are special cases.
-/

set_option linter.unusedSectionVars false

namespace Mlp.Props
open Mlp.Paper Mlp.PaperR Mlp.PerfR Mlp.BootR Mlp.Boot Mlp.Spec Mlp.Lemmas Mlp.Round

variable {L : Lib ℝ} {u tiny : ℝ} {G : ℝ → Prop} (hL : SignLib L) (hg : GradualRounding u tiny G L.rnd) {m : Nat}
  (hm : HalvesExact L.rnd m) (hm1 : 1000 ≤ m)
include hL hg hm hm1

theorem unit_small {xs : List ℝ} (hne : xs ≠ []) (hn : xs.length * u ≤ 1 / 1000000) : u ≤ 1 / 1000000 := by
  have hl : (1 : ℝ) ≤ xs.length := by exact_mod_cast List.length_pos_iff.2 hne
  have := hg.unit_nonneg
  nlinarith

/-- The error bar of any method before it is clipped. -/
theorem raw_EBR {xs : List ℝ} (hne : xs ≠ []) (hn : xs.length * u ≤ 1 / 1000000) {lower upper : Flt ℝ}
    (hv : ValidLimits lower upper) (hw : Within lower upper xs) {c : ℝ} (h0 : 0 < c) (hc1 : 2 * tiny < 1 - c)
    (method : EBMethod) (hme : method ≠ .other) (counts : List (List Nat))
    (hd : method = .boot → ValidDraws xs.length 1000 counts) :
    ∃ e : Flt ℝ, e ≠ .nan ∧ .fin 0 ≤ e ∧ (match method with
      | .t => tEBR L (finVec xs) (.fin c)
      | .bernstein => bernsteinEBR L (finVec xs) lower upper (.fin c)
      | .boot => bootEBR L (finVec xs) (.fin c) defaultNBoot counts
      | .other => .error .assertion : Py (Flt ℝ)) = .ok e := by
  have h1 : c < 1 := by linarith [hg.tiny_nonneg]
  have hc : confOkR (Flt.fin c) = true := by simp [confOkR, h0, h1]
  by_cases h2 : 2 ≤ xs.length
  · cases method with
    | t =>
      obtain ⟨e, he, hp⟩ := tEBR_ok hL hg h2 h0 h1
      exact ⟨.fin e, by simp, by simpa using hp, he⟩
    | bernstein =>
      obtain ⟨e, he, hp, hq⟩ := bernsteinEBR_ok hL hg (unit_small hL hg hm hm1 hne hn) hv hw h0 hc1
      exact ⟨e, hp, hq, he⟩
    | boot =>
      obtain ⟨e, p, l, h, -, hp, -, -, -, -, -, -, he, -⟩ :=
        bootR_ok hL hg hm (by omega) h2 (by simpa [defaultNBoot] using hm1) (hd rfl) h0 (by linarith [hg.tiny_nonneg])
      exact ⟨.fin e, by simp, by simpa using hp, he⟩
    | other => exact absurd rfl hme
  · have h2' : uninformative (finVec xs) = true := (uninformative_iff _).2 (Or.inl (by simp [finVec]; omega))
    have hnn := (noNaN_any _).2 (noNaN_finVec xs)
    cases method with
    | t =>
      refine ⟨.pinf, by simp, by simp, ?_⟩
      simp only [tEBR, pyAssert_bind, hnn, if_true, hc, h2']
      rfl
    | bernstein =>
      obtain ⟨e, he, hp, hq⟩ := bernsteinEBR_ok hL hg (unit_small hL hg hm hm1 hne hn) hv hw h0 hc1
      exact ⟨e, hp, hq, he⟩
    | boot =>
      refine ⟨.pinf, by simp, by simp, ?_⟩
      simp only [bootEBR, bootEBTestR, pyAssert_bind, hnn, if_true, h2', pure_eq_ok, ok_bind]
      rfl
    | other => exact absurd rfl hme

/-- The p-value of any method. -/
theorem raw_testR {xs : List ℝ} (hn : xs.length * u ≤ 1 / 1000000) {lower upper : Flt ℝ}
    (hv : ValidLimits lower upper) (hw : Within lower upper xs)
    (hR1 : ∀ l h, lower = .fin l → upper = .fin h → l = h ∨ 4 * xs.length * tiny < h - l)
    (method : EBMethod) (hme : method ≠ .other) (counts : List (List Nat))
    (hd : method = .boot → ValidDraws xs.length 1000 counts) :
    ∃ p : ℝ, getTestR L (finVec xs) lower upper method counts = .ok (.fin p) ∧ 0 ≤ p ∧ p ≤ 1 := by
  by_cases h2 : 2 ≤ xs.length
  · cases method with
    | t => exact tTestR_ok hL hg h2 hn
    | bernstein => exact bernsteinTestR_ok hL hg (fun h => unit_small hL hg hm hm1 (by rintro rfl; simp at h) hn) hv hw hR1
    | boot =>
      obtain ⟨e, p, l, h, -, -, p0, p1, -, -, -, -, -, hp⟩ :=
        bootR_ok hL hg hm (by omega) h2 (by simpa [defaultNBoot] using hm1) (hd rfl) (c := 1 / 2) (by norm_num) (by norm_num)
      exact ⟨p, hp, p0, p1⟩
    | other => exact absurd rfl hme
  · have h2' : uninformative (finVec xs) = true := (uninformative_iff _).2 (Or.inl (by simp [finVec]; omega))
    have hnn := (noNaN_any _).2 (noNaN_finVec xs)
    cases method with
    | t =>
      refine ⟨1, ?_, by norm_num, le_rfl⟩
      simp only [getTestR, tTestR, pyAssert_bind, hnn, if_true, h2']
      rfl
    | bernstein => exact bernsteinTestR_ok hL hg (fun h => unit_small hL hg hm hm1 (by rintro rfl; simp at h) hn) hv hw hR1
    | boot =>
      refine ⟨1, ?_, by norm_num, le_rfl⟩
      simp only [getTestR, bootTestR, bootEBTestR, pyAssert_bind, hnn, if_true, h2', pure_eq_ok, ok_bind]
      simp
    | other => exact absurd rfl hme

/-- Clipping a bar that is a float keeps it between the two ends. -/
theorem clip_bar {e : Flt ℝ} (hen : e ≠ .nan) {b : ℝ} {t : Flt ℝ} (ht : t ≠ .nan) (hbt : .fin b ≤ t) :
    e.clip (.fin b) t ≠ .nan ∧ .fin b ≤ e.clip (.fin b) t ∧ e.clip (.fin b) t ≤ t := by
  rw [Flt.clip_eq hen (by simp) ht]
  split_ifs with h1 h2
  · exact ⟨by simp, le_rfl, hbt⟩
  · exact ⟨ht, hbt, le_rfl⟩
  · exact ⟨hen, not_lt.1 h1, not_lt.1 h2⟩

/-- **C128, mean and error bar.**  For finite data within the limits `get_mean_and_EB` succeeds in floating point
arithmetic with every method: it returns the computed mean clipped to the limits and an error bar between the
minimum and the largest possible one. -/
theorem C128_mean_and_EB {xs : List ℝ} (hne : xs ≠ []) (hn : xs.length * u ≤ 1 / 1000000) (hG : ∀ x ∈ xs, G x)
    {lower upper : Flt ℝ} (hlG : ∀ l, lower = .fin l → G l) (huG : ∀ h, upper = .fin h → G h)
    (hv : ValidLimits lower upper) (hw : Within lower upper xs) {c : ℝ} (h0 : 0 < c) (hc1 : 2 * tiny < 1 - c)
    (method : EBMethod) (hme : method ≠ .other) (counts : List (List Nat))
    (hd : method = .boot → ValidDraws xs.length 1000 counts)
    {b : ℝ} (hb : 0 ≤ b) (hbr : L.rnd b = b) (h3 : .fin (2 * b) ≤ rF L.rnd (upper.sub lower)) :
    ∃ mu e : Flt ℝ, getMeanEBR L (finVec xs) (.fin c) (.fin b) lower upper method counts = .ok (mu, e) ∧
      mu = (Flt.fin (meanR L xs)).clip lower upper ∧ lower ≤ mu ∧ mu ≤ upper ∧ e ≠ .nan ∧ .fin b ≤ e ∧
      e ≤ Flt.fmax (rF L.rnd (upper.sub mu)) (rF L.rnd (mu.sub lower)) := by
  obtain ⟨e0, hnan, -, he0⟩ := raw_EBR hL hg hm hm1 hne hn hv hw h0 hc1 method hme counts hd
  have hcl := clipChkR_mean hg hL.sum hne hG hn hv hw
  obtain ⟨c1, c2⟩ := clip_between hv (meanR L xs)
  obtain ⟨e1, t1, t2⟩ := clipEBR_ok hL hg e0 hlG huG hv c1 c2 hb hbr h3
  obtain ⟨d1, d2, d3⟩ := clip_bar hL hg hm hm1 hnan t1 t2
  refine ⟨_, _, ?_, rfl, c1, c2, d1, d2, d3⟩
  unfold getMeanEBR
  rw [pyAssert_bind, if_pos ((within_finVec hv.2.1 xs).2 hw)]
  cases method with
  | other => exact absurd rfl hme
  | _ =>
    dsimp only at he0 ⊢
    rw [he0, ok_bind, meanFR_finVec hne, hcl, ok_bind, e1, ok_bind]
    rfl

/-- **C128, tests.**  For finite data within the limits every test succeeds and returns a p-value between 0 and 1. -/
theorem C128_test {xs : List ℝ} (hn : xs.length * u ≤ 1 / 1000000) {lower upper : Flt ℝ}
    (hv : ValidLimits lower upper) (hw : Within lower upper xs)
    (hR1 : ∀ l h, lower = .fin l → upper = .fin h → l = h ∨ 4 * xs.length * tiny < h - l)
    (method : EBMethod) (hme : method ≠ .other) (counts : List (List Nat))
    (hd : method = .boot → ValidDraws xs.length 1000 counts) :
    ∃ p : ℝ, getTestR L (finVec xs) lower upper method counts = .ok (.fin p) ∧ 0 ≤ p ∧ p ≤ 1 :=
  raw_testR hL hg hm hm1 hn hv hw hR1 method hme counts hd

/-- **C128, all at once.**  For finite data within the limits `get_mean_EB_test` succeeds and returns, to the last bit,
what `get_mean_and_EB` and `get_test` return for the same draws. -/
theorem C128_combined {xs : List ℝ} (hne : xs ≠ []) (hn : xs.length * u ≤ 1 / 1000000) (hG : ∀ x ∈ xs, G x)
    {lower upper : Flt ℝ} (hlG : ∀ l, lower = .fin l → G l) (huG : ∀ h, upper = .fin h → G h)
    (hR1 : ∀ l h, lower = .fin l → upper = .fin h → l = h ∨ 4 * xs.length * tiny < h - l)
    (hv : ValidLimits lower upper) (hw : Within lower upper xs) {c : ℝ} (h0 : 0 < c) (hc1 : 2 * tiny < 1 - c)
    (method : EBMethod) (hme : method ≠ .other) (counts : List (List Nat))
    (hd : method = .boot → ValidDraws xs.length 1000 counts)
    {b : ℝ} (hb : 0 ≤ b) (hbr : L.rnd b = b) (h3 : .fin (2 * b) ≤ rF L.rnd (upper.sub lower)) :
    ∃ (mu e : Flt ℝ) (p : ℝ), getMeanEBTestR L (finVec xs) (.fin c) (.fin b) lower upper method counts =
        .ok (mu, e, .fin p) ∧
      getMeanEBR L (finVec xs) (.fin c) (.fin b) lower upper method counts = .ok (mu, e) ∧
      getTestR L (finVec xs) lower upper method counts = .ok (.fin p) := by
  have hcl := clipChkR_mean hg hL.sum hne hG hn hv hw
  obtain ⟨c1, c2⟩ := clip_between hv (meanR L xs)
  have hcE := fun e0 => (clipEBR_ok hL hg e0 hlG huG hv c1 c2 hb hbr h3).1
  have hwi := (within_finVec hv.2.1 xs).2 hw
  -- the error bar and the p-value of the method itself
  have key : ∃ (e0 : Flt ℝ) (p : ℝ), (match method with
      | .t => do
        let EB ← tEBR L (finVec xs) (.fin c)
        let pval ← tTestR L (finVec xs)
        return (EB, pval)
      | .bernstein => do
        let EB ← bernsteinEBR L (finVec xs) lower upper (.fin c)
        let pval ← bernsteinTestR L (finVec xs) lower upper
        return (EB, pval)
      | .boot => do
        let r ← bootEBTestR L (finVec xs) (.fin c) defaultNBoot counts true true false
        return (r.1, r.2.1)
      | .other => .error .assertion : Py (Flt ℝ × Flt ℝ)) = .ok (e0, .fin p) ∧
      (match method with
      | .t => tEBR L (finVec xs) (.fin c)
      | .bernstein => bernsteinEBR L (finVec xs) lower upper (.fin c)
      | .boot => bootEBR L (finVec xs) (.fin c) defaultNBoot counts
      | .other => .error .assertion : Py (Flt ℝ)) = .ok e0 ∧
      getTestR L (finVec xs) lower upper method counts = .ok (.fin p) := by
    cases method with
    | t =>
      obtain ⟨e0, -, -, a⟩ := raw_EBR hL hg hm hm1 hne hn hv hw h0 hc1 .t hme counts hd
      obtain ⟨p, b, -⟩ := raw_testR hL hg hm hm1 hn hv hw hR1 .t hme counts hd
      simp only [getTestR] at a b
      exact ⟨e0, p, by simp only [a, b, ok_bind, pure_eq_ok], a, b⟩
    | bernstein =>
      obtain ⟨e0, -, -, a⟩ := raw_EBR hL hg hm hm1 hne hn hv hw h0 hc1 .bernstein hme counts hd
      obtain ⟨p, b, -⟩ := raw_testR hL hg hm hm1 hn hv hw hR1 .bernstein hme counts hd
      simp only [getTestR] at a b
      exact ⟨e0, p, by simp only [a, b, ok_bind, pure_eq_ok], a, b⟩
    | boot =>
      by_cases h2 : 2 ≤ xs.length
      · obtain ⟨e, p, l, h, -, -, -, -, -, -, -, a, b, d⟩ :=
          bootR_ok hL hg hm (by omega) h2 (by simpa [defaultNBoot] using hm1) (hd rfl) h0 (by linarith [hg.tiny_nonneg])
        exact ⟨.fin e, p, by simp only [defaultNBoot, a, ok_bind, pure_eq_ok], b, d⟩
      · have h2' : uninformative (finVec xs) = true := (uninformative_iff _).2 (Or.inl (by simp [finVec]; omega))
        have hnn := (noNaN_any _).2 (noNaN_finVec xs)
        refine ⟨.pinf, 1, ?_, ?_, ?_⟩
        · simp only [bootEBTestR, pyAssert_bind, hnn, if_true, h2', pure_eq_ok, ok_bind]
        · simp only [bootEBR, bootEBTestR, pyAssert_bind, hnn, if_true, h2', pure_eq_ok, ok_bind]
          rfl
        · simp only [getTestR, bootTestR, bootEBTestR, pyAssert_bind, hnn, if_true, h2', pure_eq_ok, ok_bind]
          simp
    | other => exact absurd rfl hme
  obtain ⟨e0, p, k1, k2, k3⟩ := key
  refine ⟨(Flt.fin (meanR L xs)).clip lower upper,
    e0.clip (.fin b) (trivialR L ((Flt.fin (meanR L xs)).clip lower upper) lower upper), p, ?_, ?_, k3⟩
  · unfold getMeanEBTestR
    rw [pyAssert_bind, if_pos hwi]
    cases method with
    | other => exact absurd rfl hme
    | _ =>
      dsimp only at k1 ⊢
      rw [k1, ok_bind, meanFR_finVec hne, hcl, ok_bind, hcE, ok_bind]
      rfl
  · unfold getMeanEBR
    rw [pyAssert_bind, if_pos hwi]
    cases method with
    | other => exact absurd rfl hme
    | _ =>
      dsimp only at k2 ⊢
      rw [k2, ok_bind, meanFR_finVec hne, hcl, ok_bind, hcE, ok_bind]
      rfl

/-! ## The table -/

/-- The computed range is valid, and computed differences of losses within the limits are within it. -/
theorem rangeR_valid {lower upper : Flt ℝ} (hv : ValidLimits lower upper) :
    ValidLimits (rF L.rnd (upper.sub lower)).neg (rF L.rnd (upper.sub lower)) ∧
      Flt.fin (2 * 0) ≤ rF L.rnd ((rF L.rnd (upper.sub lower)).sub (rF L.rnd (upper.sub lower)).neg) := by
  rcases rangeR_cases hL hg hv with ⟨l, h, -, -, -, e, h0⟩ | ⟨-, e⟩
  · rw [e]
    refine ⟨⟨by simp, by simp, ?_, by simp, by simp⟩, ?_⟩
    · simp only [Flt.neg_fin, Flt.fin_le_fin]; linarith
    · simp only [Flt.neg_fin, Flt.sub_fin, rF, Flt.fin_le_fin, mul_zero]
      exact hg.nonneg (by linarith)
  · rw [e]
    exact ⟨⟨by simp [Flt.neg], by simp, by simp [Flt.neg], by simp [Flt.neg], by simp⟩, by simp [Flt.neg, Flt.sub, Flt.add, rF]⟩

/-- The computed range is a float. -/
theorem rangeR_float {lower upper : Flt ℝ} (hv : ValidLimits lower upper) :
    (∀ l, (rF L.rnd (upper.sub lower)).neg = .fin l → G l) ∧ (∀ h, rF L.rnd (upper.sub lower) = .fin h → G h) := by
  rcases rangeR_cases hL hg hv with ⟨l, h, -, -, -, e, h0⟩ | ⟨-, e⟩
  · rw [e]
    constructor
    · intro x hx
      rw [Flt.neg_fin, Flt.fin.injEq] at hx
      rw [← hx, ← hg.neg]
      exact hg.float _
    · intro x hx
      rw [Flt.fin.injEq] at hx
      rw [← hx]
      exact hg.float _
  · rw [e]
    exact ⟨fun x hx => by simp [Flt.neg] at hx, fun x hx => by simp at hx⟩

/-- The computed range is 0 or not extremely small. -/
theorem rangeR_gap {lower upper : Flt ℝ} (hv : ValidLimits lower upper) {n : Nat} (h1 : 1 ≤ n) (hn : n * u ≤ 1 / 1000000)
    (hs : SafeLimits tiny G n lower upper) :
    ∀ l h, (rF L.rnd (upper.sub lower)).neg = .fin l → rF L.rnd (upper.sub lower) = .fin h →
      l = h ∨ 4 * n * tiny < h - l := by
  have hu := hg.unit_nonneg
  have ht := hg.tiny_nonneg
  have h1' : (1 : ℝ) ≤ n := by exact_mod_cast h1
  rcases rangeR_cases hL hg hv with ⟨l, h, el, eh, hlh, e, h0⟩ | ⟨-, e⟩
  · rw [e]
    rintro x y hx hy
    rw [Flt.neg_fin, Flt.fin.injEq] at hx
    rw [Flt.fin.injEq] at hy
    subst hx hy
    rcases hs.2.2 l h el eh with h' | h'
    · left
      rw [h', sub_self, hg.zero, neg_zero]
    · right
      have hu1 : u ≤ 1 / 1000000 := by nlinarith
      have := (gradual_bounds hg (sub_nonneg.2 hlh)).1
      have hnt : tiny ≤ n * tiny := by nlinarith
      nlinarith
  · rw [e]
    rintro x y hx hy
    simp at hy

theorem deltaR_within {lower upper : Flt ℝ} (hv : ValidLimits lower upper) {xs rs : List ℝ}
    (hx : Within lower upper xs) (hr : Within lower upper rs) :
    Within (rF L.rnd (upper.sub lower)).neg (rF L.rnd (upper.sub lower))
      (List.zipWith (fun (a b : ℝ) => L.rnd (a - b)) xs rs) := by
  intro d hd
  obtain ⟨i, hi, rfl⟩ := List.mem_iff_getElem.1 hd
  rw [List.getElem_zipWith]
  rw [List.length_zipWith] at hi
  have h1 := hx xs[i] (List.getElem_mem _)
  have h2 := hr rs[i] (List.getElem_mem _)
  rcases rangeR_cases hL hg hv with ⟨l, h, rfl, rfl, hlh, e, h0⟩ | ⟨-, e⟩
  · rw [e]
    simp only [Flt.fin_le_fin] at h1 h2
    simp only [Flt.neg_fin, Flt.fin_le_fin]
    constructor
    · rw [← hg.neg]
      exact hg.mono (by linarith [h1.1, h2.2])
    · exact hg.mono (by linarith [h1.2, h2.1])
  · rw [e]
    exact ⟨by simp [Flt.neg], by simp⟩

omit hL hg hm hm1 in
theorem deltasR_finVec (xs rs : List ℝ) :
    List.zipWith (fun a b => rF L.rnd (Flt.sub a b)) (finVec xs) (finVec rs) =
      finVec (List.zipWith (fun (a b : ℝ) => L.rnd (a - b)) xs rs) := by
  unfold finVec
  rw [List.zipWith_map, List.map_zipWith]
  congr 1

/-- **C128, cells.**  With `pairwise_CI` the cell of a method in comparison with the reference is always computed:
the mean is `np.mean` of its losses, the error bar is a number or infinite, at least 0 and at most the largest possible error of the
difference, the p-value lies between 0 and 1.  The cell of the reference has the mean only. -/
theorem C128_cell {xs rs : List ℝ} (hne : xs ≠ []) (hlen : rs.length = xs.length) (hn : xs.length * u ≤ 1 / 1000000)
    {lower upper : Flt ℝ} (hs : SafeLimits tiny G xs.length lower upper) (hv : ValidLimits lower upper) (hx : Within lower upper xs) (hr : Within lower upper rs)
    {c : ℝ} (h0 : 0 < c) (hc1 : 2 * tiny < 1 - c) (method : EBMethod) (hme : method ≠ .other) (draws : Draws)
    (hd : method = .boot → ValidDraws xs.length 1000 draws.eb) :
    cellOfR L (finVec xs) (finVec rs) true true (.fin c) method lower upper draws =
      .ok (.fin (meanR L xs), .nan, .nan) ∧
    ∃ (e : Flt ℝ) (p : ℝ), cellOfR L (finVec xs) (finVec rs) false true (.fin c) method lower upper draws =
        .ok (.fin (meanR L xs), e, .fin p) ∧ e ≠ .nan ∧ .fin 0 ≤ e ∧
      (∀ l h : ℝ, lower = .fin l → upper = .fin h → e ≤ .fin (2 * L.rnd (h - l))) ∧ 0 ≤ p ∧ p ≤ 1 := by
  have hxn := (noNaN_any _).2 (noNaN_finVec xs)
  have hxw := (within_finVec hv.2.1 xs).2 hx
  constructor
  · unfold cellOfR
    rw [pyAssert_bind, if_pos hxn, pyAssert_bind, if_pos hxw]
    simp only [meanFR_finVec hne, if_true, pure_eq_ok]
  · obtain ⟨rv, r0⟩ := rangeR_valid hL hg hm hm1 hv
    have hdw := deltaR_within hL hg hm hm1 hv hx hr
    have hlen' : (List.zipWith (fun (a b : ℝ) => L.rnd (a - b)) xs rs).length = xs.length := by simp [hlen]
    have hdne : List.zipWith (fun (a b : ℝ) => L.rnd (a - b)) xs rs ≠ [] := by
      intro hc
      rw [hc] at hlen'
      exact hne (List.eq_nil_of_length_eq_zero hlen'.symm)
    have hdG : ∀ x ∈ List.zipWith (fun (a b : ℝ) => L.rnd (a - b)) xs rs, G x := by
      intro x hx'
      obtain ⟨i, hi, rfl⟩ := List.mem_iff_getElem.1 hx'
      rw [List.getElem_zipWith]
      exact hg.float _
    obtain ⟨rG1, rG2⟩ := rangeR_float hL hg hm hm1 hv
    have rgap := rangeR_gap hL hg hm hm1 hv (List.length_pos_iff.2 hne) hn hs
    obtain ⟨mu, e, p, g1, g2, g3⟩ := C128_combined hL hg hm hm1 hdne (by rw [hlen']; exact hn) hdG rG1 rG2 (by rw [hlen']; exact rgap)
      rv hdw h0 hc1 method hme
      draws.eb (by rw [hlen']; exact hd) le_rfl hg.zero r0
    obtain ⟨mu', e', g2', -, m1, m2, d1, d2, d3⟩ := C128_mean_and_EB hL hg hm hm1 hdne (by rw [hlen']; exact hn) hdG rG1 rG2 rv hdw h0 hc1
      method hme draws.eb (by rw [hlen']; exact hd) le_rfl hg.zero r0
    rw [g2] at g2'
    cases g2'
    obtain ⟨p', g3', p0, p1⟩ := C128_test hL hg hm hm1 (by rw [hlen']; exact hn) rv hdw (by rw [hlen']; exact rgap) method hme draws.eb (by rw [hlen']; exact hd)
    rw [g3] at g3'
    cases g3'
    refine ⟨e, p, ?_, d1, d2, ?_, p0, p1⟩
    · unfold cellOfR
      rw [pyAssert_bind, if_pos hxn, pyAssert_bind, if_pos hxw]
      simp only [deltasR_finVec, meanFR_finVec hne, if_true, Bool.false_eq_true, if_false]
      rw [g1, ok_bind]
      rfl
    · rintro l h rfl rfl
      refine d3.trans ?_
      simp only [Flt.sub_fin, rF, Flt.neg_fin] at m1 m2 ⊢
      cases mu with
      | fin t =>
        simp only [Flt.fin_le_fin] at m1 m2
        simp only [Flt.sub_fin, rF, Flt.fmax_fin, Flt.fin_le_fin]
        rw [← hg.mono.map_max]
        have := hg.double_float (L.rnd (h - l)) (hg.idem _)
        rw [← this]
        exact hg.mono (max_le (by linarith) (by linarith))
      | pinf => simp at m2
      | ninf => simp at m1
      | nan => simp at m2

omit hL hg hm hm1 in
theorem lossCellR_ok_iff {lossRef : List (Flt ℝ)} {tbl : LossTable} {refMethod : Str}
    {pairwise : Bool} {confidence : Flt ℝ} {methodEB : EBMethod} {lower upper : Flt ℝ} {metric : Str}
    {draws : Draws} {method : Str} {cell : Flt ℝ × Flt ℝ × Flt ℝ} :
    lossCellR L lossRef tbl refMethod pairwise confidence methodEB lower upper metric draws method = .ok cell ↔
      ∃ loss, HasLoss tbl metric method loss ∧
        cellOfR L loss lossRef (decide (method = refMethod)) pairwise confidence methodEB lower upper draws = .ok cell := by
  unfold lossCellR
  rw [bind_ok_iff]
  simp only [column_ok_iff]

omit hL hg hm hm1 in
theorem summaryR_ok {tbl : LossTable} {refMethod : Str} {pairwise : Bool}
    {confidence : Flt ℝ} {methodEB : EBMethod} {limits : List (Str × (Flt ℝ × Flt ℝ))}
    {draws : Str → Str → Draws} {out : List (List (Flt ℝ × Flt ℝ × Flt ℝ))} :
    lossSummaryTableR L tbl refMethod pairwise confidence methodEB limits draws = .ok out ↔
      refMethod ∈ tbl.methods ∧ 1 ≤ tbl.nrows ∧ tbl.metrics ≠ [] ∧
      List.Forall₂ (fun metric row => ∃ lower upper lossRef, LimitsOf limits metric lower upper ∧
        lower.le upper = true ∧ HasLoss tbl metric refMethod lossRef ∧ NoNaN lossRef ∧
        within lower upper lossRef = true ∧
        List.Forall₂ (fun method cell => ∃ loss, HasLoss tbl metric method loss ∧
          cellOfR L loss lossRef (decide (method = refMethod)) pairwise confidence methodEB lower upper
            (draws metric method) = .ok cell) tbl.methods row) tbl.metrics out := by
  unfold lossSummaryTableR
  have hlen : 1 ≤ tbl.metrics.length ↔ tbl.metrics ≠ [] := by
    rw [← List.length_pos_iff]; omega
  simp only [assert_bind_ok, decide_eq_true_eq, Bool.and_eq_true, mapM_ok_iff, hlen]
  simp only [bind_ok_iff, column_ok_iff, exists_unit, pyAssert_eq_ok, noNaN_any, mapM_ok_iff, lossCellR_ok_iff]
  rw [and_assoc]
  refine and_congr_right fun _ => and_congr_right fun _ => and_congr_right fun _ => ?_
  have key : ∀ metric row, ((limitsGet limits metric).1.le (limitsGet limits metric).2 = true ∧
      ∃ lossRef, HasLoss tbl metric refMethod lossRef ∧ NoNaN lossRef ∧
      within (limitsGet limits metric).1 (limitsGet limits metric).2 lossRef = true ∧
      List.Forall₂ (fun method cell => ∃ loss, HasLoss tbl metric method loss ∧
        cellOfR L loss lossRef (decide (method = refMethod)) pairwise confidence methodEB
        (limitsGet limits metric).1 (limitsGet limits metric).2 (draws metric method) = .ok cell)
        tbl.methods row) ↔
      (∃ lower upper lossRef, LimitsOf limits metric lower upper ∧
        lower.le upper = true ∧ HasLoss tbl metric refMethod lossRef ∧ NoNaN lossRef ∧
        within lower upper lossRef = true ∧
        List.Forall₂ (fun method cell => ∃ loss, HasLoss tbl metric method loss ∧
          cellOfR L loss lossRef (decide (method = refMethod)) pairwise confidence methodEB
          lower upper (draws metric method) = .ok cell) tbl.methods row) := by
    intro metric row
    constructor
    · rintro ⟨a, lr, b, c, d, e⟩
      exact ⟨_, _, lr, (limitsGet_spec limits metric _ _).1 rfl, a, b, c, d, e⟩
    · rintro ⟨lo, hi, lr, hl, a, b, c, d, e⟩
      rw [(limitsGet_spec limits metric _ _).2 hl]
      exact ⟨a, lr, b, c, d, e⟩
  simp only [key]

/-- The table is computed if every cell is. -/
theorem tableR_of_cells {tbl : LossTable} {refMethod : Str} {pairwise : Bool}
    {c : ℝ} {methodEB : EBMethod} {limits : List (Str × (Flt ℝ × Flt ℝ))} {draws : Str → Str → Draws}
    (href : refMethod ∈ tbl.methods) (hrows : 1 ≤ tbl.nrows) (hmetrics : tbl.metrics ≠ [])
    (P : Str → Str → Flt ℝ × Flt ℝ × Flt ℝ → Prop)
    (hfin : ∀ metric ∈ tbl.metrics, ∃ lower upper, LimitsOf limits metric lower upper ∧
      ValidLimits lower upper ∧ ∃ rs : List ℝ, HasLoss tbl metric refMethod (finVec rs) ∧ Within lower upper rs ∧
        ∀ method ∈ tbl.methods, ∃ xs : List ℝ, HasLoss tbl metric method (finVec xs) ∧
          ∃ cell, cellOfR L (finVec xs) (finVec rs) (decide (method = refMethod)) pairwise (.fin c) methodEB
            lower upper (draws metric method) = .ok cell ∧ P metric method cell) :
    ∃ out, lossSummaryTableR L tbl refMethod pairwise (.fin c) methodEB limits draws = .ok out ∧
      List.Forall₂ (fun metric row => List.Forall₂ (fun method cell => P metric method cell) tbl.methods row)
        tbl.metrics out := by
  obtain ⟨out, hout⟩ := forall₂_exists (l := tbl.metrics) (R := fun metric row =>
      (∃ lower upper lossRef, LimitsOf limits metric lower upper ∧
        lower.le upper = true ∧ HasLoss tbl metric refMethod lossRef ∧ NoNaN lossRef ∧
        within lower upper lossRef = true ∧
        List.Forall₂ (fun method cell => (∃ loss, HasLoss tbl metric method loss ∧
          cellOfR L loss lossRef (decide (method = refMethod)) pairwise (.fin c) methodEB lower upper
            (draws metric method) = .ok cell) ∧ P metric method cell) tbl.methods row)) (by
    intro metric hmet
    obtain ⟨lower, upper, a1, hv, rs, a3, a4, hcell⟩ := hfin metric hmet
    obtain ⟨row, hrow⟩ := forall₂_exists (l := tbl.methods) (R := fun method cell => (∃ loss, HasLoss tbl metric method loss ∧
          cellOfR L loss (finVec rs) (decide (method = refMethod)) pairwise (.fin c) methodEB lower upper
            (draws metric method) = .ok cell) ∧ P metric method cell) (by
      intro method hmeth
      obtain ⟨xs, b1, cell, b2, b3⟩ := hcell method hmeth
      exact ⟨cell, ⟨_, b1, b2⟩, b3⟩)
    exact ⟨row, lower, upper, _, a1, Flt.le_iff.2 ⟨hv.2.1, hv.2.2.1⟩, a3, noNaN_finVec rs,
      (within_finVec hv.2.1 rs).2 a4, hrow⟩)
  refine ⟨out, summaryR_ok.2 ⟨href, hrows, hmetrics, ?_⟩, ?_⟩
  · refine hout.imp ?_
    rintro metric row ⟨lower, upper, lr, a1, a2, a3, a4, a5, h⟩
    exact ⟨lower, upper, lr, a1, a2, a3, a4, a5, h.imp fun _ _ h => h.1⟩
  · refine hout.imp ?_
    rintro metric row ⟨lower, upper, lr, a1, a2, a3, a4, a5, h⟩
    exact h.imp fun _ _ h => h.2

/-- **C128, the table.**  With `pairwise_CI`, finite losses within valid limits, at least one row, a known method and a confidence
in (0,1) `loss_summary_table` produces the table in floating point arithmetic too, for every outcome of the bootstrap
draws.  Every cell has the computed mean of its losses; the reference has no error bar and no p-value; for the others the error bar
is not NaN and not negative and the p-value lies between 0 and 1. -/
theorem C128_table {tbl : LossTable} {refMethod : Str}
    {c : ℝ} (h0 : 0 < c) (hc1 : 2 * tiny < 1 - c) {methodEB : EBMethod} (hme : methodEB ≠ .other)
    {limits : List (Str × (Flt ℝ × Flt ℝ))} {draws : Str → Str → Draws}
    (hd : methodEB = .boot → ∀ metric method, ValidDraws tbl.nrows 1000 (draws metric method).eb)
    (href : refMethod ∈ tbl.methods) (hrows : 1 ≤ tbl.nrows) (hn : tbl.nrows * u ≤ 1 / 1000000) (hmetrics : tbl.metrics ≠ [])
    (hfin : ∀ metric ∈ tbl.metrics, ∃ lower upper, LimitsOf limits metric lower upper ∧
      ValidLimits lower upper ∧ SafeLimits tiny G tbl.nrows lower upper ∧ ∀ method ∈ tbl.methods, ∃ xs : List ℝ,
        HasLoss tbl metric method (finVec xs) ∧ xs.length = tbl.nrows ∧ Within lower upper xs) :
    ∃ out, lossSummaryTableR L tbl refMethod true (.fin c) methodEB limits draws = .ok out ∧
      List.Forall₂ (fun metric row => List.Forall₂ (fun method cell =>
        (∃ xs : List ℝ, HasLoss tbl metric method (finVec xs) ∧ cell.1 = .fin (meanR L xs)) ∧
        (method = refMethod → cell.2 = (.nan, .nan)) ∧
        (method ≠ refMethod → cell.2.1 ≠ .nan ∧ .fin 0 ≤ cell.2.1 ∧ ∃ p : ℝ, cell.2.2 = .fin p ∧ 0 ≤ p ∧ p ≤ 1))
        tbl.methods row) tbl.metrics out := by
  refine tableR_of_cells hL hg hm hm1 href hrows hmetrics _ ?_
  intro metric hmet
  obtain ⟨lower, upper, hlim, hv, hs, hall⟩ := hfin metric hmet
  obtain ⟨rs, hr1, hr2, hr3⟩ := hall refMethod href
  refine ⟨lower, upper, hlim, hv, rs, hr1, hr3, fun method hmeth => ?_⟩
  obtain ⟨xs, hx1, hx2, hx3⟩ := hall method hmeth
  have hxne : xs ≠ [] := by rintro rfl; simp at hx2; omega
  obtain ⟨c1, e, p, c2, d1, d2, -, p0, p1⟩ := C128_cell hL hg hm hm1 hxne (hr2.trans hx2.symm) (by rw [hx2]; exact hn)
    (by rw [hx2]; exact hs) hv hx3 hr3
    h0 hc1 methodEB hme (draws metric method) (by rw [hx2]; exact fun h => hd h metric method)
  refine ⟨xs, hx1, ?_⟩
  by_cases hs : method = refMethod
  · rw [decide_eq_true hs]
    exact ⟨_, c1, ⟨xs, hx1, rfl⟩, fun _ => rfl, fun h => absurd hs h⟩
  · rw [decide_eq_false hs]
    exact ⟨_, c2, ⟨xs, hx1, rfl⟩, fun h => absurd h hs, fun _ => ⟨d1, d2, p, rfl, p0, p1⟩⟩

/-! ## Without `pairwise_CI` -/

/-- **C128, cells.**  Without `pairwise_CI` the cell is computed exactly if the computed mean of the losses lies within the limits;
otherwise clipping has moved it and the comparison `mu_ == mu` raises an AssertionError, although every loss is within the limits. -/
theorem C128_cell_unpaired {xs rs : List ℝ} (hne : xs ≠ []) (hlen : rs.length = xs.length) (hn : xs.length * u ≤ 1 / 1000000)
    (hG : ∀ x ∈ xs, G x) {lower upper : Flt ℝ} (hs : SafeLimits tiny G xs.length lower upper) (hv : ValidLimits lower upper) (hx : Within lower upper xs) (hr : Within lower upper rs)
    {c : ℝ} (h0 : 0 < c) (hc1 : 2 * tiny < 1 - c) (method : EBMethod) (hme : method ≠ .other) (draws : Draws)
    (hd : method = .boot → ValidDraws xs.length 1000 draws.eb ∧ ValidDraws xs.length 1000 draws.test)
    (self : Bool) :
    (lower ≤ .fin (meanR L xs) ∧ .fin (meanR L xs) ≤ upper →
      ∃ e p : Flt ℝ, cellOfR L (finVec xs) (finVec rs) self false (.fin c) method lower upper draws =
        .ok (.fin (meanR L xs), e, p) ∧ e ≠ .nan ∧ .fin 0 ≤ e ∧
        (self = true → p = .nan) ∧ (self = false → ∃ q : ℝ, p = .fin q ∧ 0 ≤ q ∧ q ≤ 1)) ∧
    (¬ (lower ≤ .fin (meanR L xs) ∧ .fin (meanR L xs) ≤ upper) →
      cellOfR L (finVec xs) (finVec rs) self false (.fin c) method lower upper draws = .error .assertion) := by
  have hxn := (noNaN_any _).2 (noNaN_finVec xs)
  have hxw := (within_finVec hv.2.1 xs).2 hx
  have h3 : Flt.fin (2 * 0) ≤ rF L.rnd (upper.sub lower) := by
    rw [mul_zero]
    exact (Flt.le_iff.1 (rangeR_nonneg hL hg hv)).2
  obtain ⟨mu, e, g, emu, m1, m2, d1, d2, -⟩ := C128_mean_and_EB hL hg hm hm1 hne hn hG hs.1 hs.2.1 hv hx h0 hc1 method hme draws.eb
    (fun h => (hd h).1) le_rfl hg.zero h3
  constructor
  · rintro ⟨b1, b2⟩
    rw [Flt.clip_id (by simp) hv.1 hv.2.1 b1 b2] at emu
    subst emu
    obtain ⟨rv, -⟩ := rangeR_valid hL hg hm hm1 hv
    have hdw := deltaR_within hL hg hm hm1 hv hx hr
    have hlen' : (List.zipWith (fun (a b : ℝ) => L.rnd (a - b)) xs rs).length = xs.length := by simp [hlen]
    obtain ⟨p, t, p0, p1⟩ := C128_test hL hg hm hm1 (by rw [hlen']; exact hn) rv hdw
      (by rw [hlen']; exact rangeR_gap hL hg hm hm1 hv (List.length_pos_iff.2 hne) hn hs) method hme draws.test
      (by rw [hlen']; exact fun h => (hd h).2)
    have eself : (Flt.fin (meanR L xs)).eq (.fin (meanR L xs)) = true := by simp
    have run : cellOfR L (finVec xs) (finVec rs) self false (.fin c) method lower upper draws = (do
        let pval ← (if self then pure .nan else
          getTestR L (finVec (List.zipWith (fun (a b : ℝ) => L.rnd (a - b)) xs rs))
            (rF L.rnd (upper.sub lower)).neg (rF L.rnd (upper.sub lower)) method draws.test : Py (Flt ℝ))
        return (.fin (meanR L xs), e, pval)) := by
      unfold cellOfR
      rw [pyAssert_bind, if_pos hxn, pyAssert_bind, if_pos hxw]
      simp only [deltasR_finVec, meanFR_finVec hne, Bool.false_eq_true, if_false]
      rw [g, ok_bind, pyAssert_bind, if_pos eself]
    rw [run]
    cases self with
    | true => exact ⟨e, .nan, rfl, d1, d2, fun _ => rfl, by simp⟩
    | false =>
      refine ⟨e, .fin p, ?_, d1, d2, by simp, fun _ => ⟨p, rfl, p0, p1⟩⟩
      simp only [Bool.false_eq_true, if_false, t, ok_bind, pure_eq_ok]
  · intro hb
    have hneq : mu ≠ .fin (meanR L xs) := by
      rintro rfl
      exact hb ⟨m1, m2⟩
    have hfalse : ¬ (mu.eq (.fin (meanR L xs)) = true) := by
      rw [Flt.eq_iff]
      exact fun h => hneq h.2
    unfold cellOfR
    rw [pyAssert_bind, if_pos hxn, pyAssert_bind, if_pos hxw]
    simp only [meanFR_finVec hne, Bool.false_eq_true, if_false]
    rw [g, ok_bind, pyAssert_bind, if_neg hfalse]

omit hL hg hm hm1 in
theorem mapM_assertion {α β : Type} {f : α → Py β} {l : List α} (h : ∀ a ∈ l, (∃ v, f a = .ok v) ∨ f a = .error .assertion)
    {a : α} (ha : a ∈ l) (he : f a = .error .assertion) : l.mapM f = .error .assertion := by
  induction l with
  | nil => simp at ha
  | cons b l ih =>
    rw [List.mapM_cons]
    rcases h b List.mem_cons_self with ⟨v, hv⟩ | hb
    · rw [hv, ok_bind]
      rcases List.mem_cons.1 ha with rfl | ha
      · rw [hv] at he; cases he
      · rw [ih (fun a h' => h a (List.mem_cons_of_mem _ h')) ha, error_bind]
    · rw [hb, error_bind]

/-- **C128, the table.**  Without `pairwise_CI`, with finite losses within valid limits, at least one row, a known method and a
confidence in (0,1): if the computed mean of every column lies within the limits of its metric, the table is produced; if the computed mean of one
column does not, the call ends in an AssertionError. -/
theorem C128_table_unpaired {tbl : LossTable} {refMethod : Str}
    {c : ℝ} (h0 : 0 < c) (hc1 : 2 * tiny < 1 - c) {methodEB : EBMethod} (hme : methodEB ≠ .other)
    {limits : List (Str × (Flt ℝ × Flt ℝ))} {draws : Str → Str → Draws}
    (hd : methodEB = .boot → ∀ metric method, ValidDraws tbl.nrows 1000 (draws metric method).eb ∧
      ValidDraws tbl.nrows 1000 (draws metric method).test)
    (href : refMethod ∈ tbl.methods) (hrows : 1 ≤ tbl.nrows) (hn : tbl.nrows * u ≤ 1 / 1000000) (hmetrics : tbl.metrics ≠ [])
    (hfin : ∀ metric ∈ tbl.metrics, ∃ lower upper, LimitsOf limits metric lower upper ∧
      ValidLimits lower upper ∧ SafeLimits tiny G tbl.nrows lower upper ∧ ∀ method ∈ tbl.methods, ∃ xs : List ℝ,
        HasLoss tbl metric method (finVec xs) ∧ xs.length = tbl.nrows ∧ Within lower upper xs ∧ ∀ x ∈ xs, G x) :
    ((∀ metric ∈ tbl.metrics, ∀ method ∈ tbl.methods, ∀ lower upper, ∀ xs : List ℝ, LimitsOf limits metric lower upper →
        HasLoss tbl metric method (finVec xs) → lower ≤ .fin (meanR L xs) ∧ .fin (meanR L xs) ≤ upper) →
      ∃ out, lossSummaryTableR L tbl refMethod false (.fin c) methodEB limits draws = .ok out ∧
      List.Forall₂ (fun metric row => List.Forall₂ (fun method cell =>
        (∃ xs : List ℝ, HasLoss tbl metric method (finVec xs) ∧ cell.1 = .fin (meanR L xs)) ∧
        cell.2.1 ≠ .nan ∧ .fin 0 ≤ cell.2.1 ∧
        (method = refMethod → cell.2.2 = .nan) ∧
        (method ≠ refMethod → ∃ p : ℝ, cell.2.2 = .fin p ∧ 0 ≤ p ∧ p ≤ 1))
        tbl.methods row) tbl.metrics out) ∧
    (∀ metric ∈ tbl.metrics, ∀ method ∈ tbl.methods, ∀ lower upper, ∀ xs : List ℝ, LimitsOf limits metric lower upper →
        HasLoss tbl metric method (finVec xs) → ¬ (lower ≤ .fin (meanR L xs) ∧ .fin (meanR L xs) ≤ upper) →
      lossSummaryTableR L tbl refMethod false (.fin c) methodEB limits draws = .error .assertion) := by
  have hcell : ∀ metric ∈ tbl.metrics, ∃ lower upper, LimitsOf limits metric lower upper ∧
      ValidLimits lower upper ∧ ∃ rs : List ℝ, HasLoss tbl metric refMethod (finVec rs) ∧ Within lower upper rs ∧
        ∀ method ∈ tbl.methods, ∃ xs : List ℝ, HasLoss tbl metric method (finVec xs) ∧
    (lower ≤ .fin (meanR L xs) ∧ .fin (meanR L xs) ≤ upper →
      ∃ e p : Flt ℝ, cellOfR L (finVec xs) (finVec rs) (decide (method = refMethod)) false (.fin c) methodEB lower upper
          (draws metric method) =
        .ok (.fin (meanR L xs), e, p) ∧ e ≠ .nan ∧ .fin 0 ≤ e ∧
        (decide (method = refMethod) = true → p = .nan) ∧
        (decide (method = refMethod) = false → ∃ q : ℝ, p = .fin q ∧ 0 ≤ q ∧ q ≤ 1)) ∧
    (¬ (lower ≤ .fin (meanR L xs) ∧ .fin (meanR L xs) ≤ upper) →
      cellOfR L (finVec xs) (finVec rs) (decide (method = refMethod)) false (.fin c) methodEB lower upper
          (draws metric method) = .error .assertion) := by
    intro metric hmet
    obtain ⟨lower, upper, hlim, hv, hs, hall⟩ := hfin metric hmet
    obtain ⟨rs, hr1, hr2, hr3, -⟩ := hall refMethod href
    refine ⟨lower, upper, hlim, hv, rs, hr1, hr3, fun method hmeth => ?_⟩
    obtain ⟨xs, hx1, hx2, hx3, hx4⟩ := hall method hmeth
    have hxne : xs ≠ [] := by rintro rfl; simp at hx2; omega
    exact ⟨xs, hx1, C128_cell_unpaired hL hg hm hm1 hxne (hr2.trans hx2.symm) (by rw [hx2]; exact hn) hx4
      (by rw [hx2]; exact hs) hv hx3 hr3 h0 hc1 methodEB hme
      (draws metric method) (by rw [hx2]; exact fun h => hd h metric method) _⟩
  constructor
  · intro hall
    refine tableR_of_cells hL hg hm hm1 href hrows hmetrics _ ?_
    intro metric hmet
    obtain ⟨lower, upper, hlim, hv, rs, hr1, hr2, h⟩ := hcell metric hmet
    refine ⟨lower, upper, hlim, hv, rs, hr1, hr2, fun method hmeth => ?_⟩
    obtain ⟨xs, hx1, hx2, -⟩ := h method hmeth
    obtain ⟨e, p, g, d1, d2, d3, d4⟩ := hx2 (hall metric hmet method hmeth lower upper xs hlim hx1)
    exact ⟨xs, hx1, _, g, ⟨xs, hx1, rfl⟩, d1, d2, fun h => d3 (decide_eq_true h), fun h => d4 (decide_eq_false h)⟩
  · intro metric hmet method hmeth lower upper xs hlim hx hout
    unfold lossSummaryTableR
    rw [pyAssert_bind, if_pos (decide_eq_true href), pyAssert_bind, if_pos (by
      simpa [hrows, Nat.one_le_iff_ne_zero] using hmetrics)]
    have row : ∀ metric ∈ tbl.metrics, ∃ lower upper, LimitsOf limits metric lower upper ∧ ∃ rs : List ℝ,
        (do
          let lim := limitsGet limits metric
          pyAssert (lim.1.le lim.2)
          let lossRef ← tbl.column metric refMethod
          pyAssert (!(lossRef.any fun v => v.isNaN))
          pyAssert (within lim.1 lim.2 lossRef)
          tbl.methods.mapM fun method =>
            lossCellR L lossRef tbl refMethod false (.fin c) methodEB lim.1 lim.2 metric (draws metric method) method :
              Py (List (Flt ℝ × Flt ℝ × Flt ℝ))) =
        tbl.methods.mapM (fun method => lossCellR L (finVec rs) tbl refMethod false (.fin c) methodEB lower upper metric
          (draws metric method) method) ∧
        ∀ method ∈ tbl.methods, ∃ xs : List ℝ, HasLoss tbl metric method (finVec xs) ∧
          (lower ≤ .fin (meanR L xs) ∧ .fin (meanR L xs) ≤ upper → ∃ v,
            lossCellR L (finVec rs) tbl refMethod false (.fin c) methodEB lower upper metric
              (draws metric method) method = .ok v) ∧
          (¬ (lower ≤ .fin (meanR L xs) ∧ .fin (meanR L xs) ≤ upper) →
            lossCellR L (finVec rs) tbl refMethod false (.fin c) methodEB lower upper metric
              (draws metric method) method = .error .assertion) := by
      intro metric hmet
      obtain ⟨lower, upper, hlim, hv, rs, hr1, hr2, h⟩ := hcell metric hmet
      refine ⟨lower, upper, hlim, rs, ?_, fun method hmeth => ?_⟩
      · rw [(limitsGet_spec limits metric _ _).2 hlim, (column_ok_iff _ _ _ _).2 hr1]
        dsimp only
        rw [pyAssert_bind, if_pos (Flt.le_iff.2 ⟨hv.2.1, hv.2.2.1⟩), ok_bind, pyAssert_bind,
          if_pos ((noNaN_any _).2 (noNaN_finVec rs)), pyAssert_bind, if_pos ((within_finVec hv.2.1 rs).2 hr2)]
      · obtain ⟨xs, hx1, hx2, hx3⟩ := h method hmeth
        refine ⟨xs, hx1, fun hb => ?_, fun hb => ?_⟩
        · obtain ⟨e, p, g, -⟩ := hx2 hb
          exact ⟨_, lossCellR_ok_iff.2 ⟨_, hx1, g⟩⟩
        · unfold lossCellR
          rw [(column_ok_iff _ _ _ _).2 hx1, ok_bind, hx3 hb]
    have unique : ∀ {a b : List ℝ}, HasLoss tbl metric method (finVec a) → HasLoss tbl metric method (finVec b) → a = b := by
      intro a b ha hb
      have h := (column_ok_iff _ _ _ _).2 ha
      rw [(column_ok_iff _ _ _ _).2 hb] at h
      have h' : finVec b = finVec a := by simpa using h
      exact (List.map_injective_iff.2 (fun a b h => by simpa using h) h').symm
    have safe : ∀ metric ∈ tbl.metrics, ∀ method ∈ tbl.methods, ∀ lower upper, ∀ rs : List ℝ,
        (∃ xs : List ℝ, HasLoss tbl metric method (finVec xs) ∧
          (lower ≤ .fin (meanR L xs) ∧ .fin (meanR L xs) ≤ upper → ∃ v,
            lossCellR L (finVec rs) tbl refMethod false (.fin c) methodEB lower upper metric
              (draws metric method) method = .ok v) ∧
          (¬ (lower ≤ .fin (meanR L xs) ∧ .fin (meanR L xs) ≤ upper) →
            lossCellR L (finVec rs) tbl refMethod false (.fin c) methodEB lower upper metric
              (draws metric method) method = .error .assertion)) →
        (∃ v, lossCellR L (finVec rs) tbl refMethod false (.fin c) methodEB lower upper metric
              (draws metric method) method = .ok v) ∨
            lossCellR L (finVec rs) tbl refMethod false (.fin c) methodEB lower upper metric
              (draws metric method) method = .error .assertion := by
      rintro metric - method - lower upper rs ⟨xs, -, h1, h2⟩
      by_cases hb : lower ≤ .fin (meanR L xs) ∧ .fin (meanR L xs) ≤ upper
      · exact .inl (h1 hb)
      · exact .inr (h2 hb)
    refine mapM_assertion (a := metric) ?_ hmet ?_
    · intro metric' hmet'
      obtain ⟨lo, hi, -, rs, e, h⟩ := row metric' hmet'
      rw [e]
      by_cases hall : ∃ method ∈ tbl.methods, lossCellR L (finVec rs) tbl refMethod false (.fin c) methodEB lo hi metric'
          (draws metric' method) method = .error .assertion
      · obtain ⟨meth, hm1', hm2⟩ := hall
        exact .inr (mapM_assertion (fun a ha => safe metric' hmet' a ha _ _ rs (h a ha)) hm1' hm2)
      · left
        obtain ⟨out, ho⟩ := forall₂_exists (l := tbl.methods) (R := fun method cell =>
          lossCellR L (finVec rs) tbl refMethod false (.fin c) methodEB lo hi metric'
          (draws metric' method) method = .ok cell) (by
            intro a ha
            rcases safe metric' hmet' a ha _ _ rs (h a ha) with h' | h'
            · exact h'
            · exact absurd ⟨a, ha, h'⟩ hall)
        exact ⟨out, (mapM_ok_iff _ _ _).2 ho⟩
    · obtain ⟨lo, hi, hlim', rs, e, h⟩ := row metric hmet
      rw [e]
      have hl : (lo, hi) = (lower, upper) :=
        ((limitsGet_spec limits metric _ _).2 hlim').symm.trans ((limitsGet_spec limits metric _ _).2 hlim)
      cases hl
      refine mapM_assertion (a := method) (fun a ha => safe metric hmet a ha _ _ rs (h a ha)) hmeth ?_
      obtain ⟨ys, hy1, -, hy2⟩ := h method hmeth
      cases unique hx hy1
      exact hy2 hout

omit hm hm1 in
/-- **C128, limits on a grid.**  If the losses are at most `h` and `h`, `2h`, ..., `n·h` are floats, the computed mean is at most `h`. -/
theorem C128_at_most {xs : List ℝ} (hne : xs ≠ []) {h : ℝ} (hk : ∀ k : Nat, k ≤ xs.length → L.rnd (k * h) = k * h)
    (hx : ∀ x ∈ xs, x ≤ h) : meanR L xs ≤ h := by
  obtain ⟨t, hp, e⟩ := hL.sum.2 xs hne
  have hl : (0 : ℝ) < xs.length := by exact_mod_cast List.length_pos_iff.2 hne
  have := tree_le hg.toMonoRounding t (M := h) (by rw [hp.length_eq]; exact hk) (fun v hv => hx v (hp.mem_iff.1 hv))
  rw [hp.length_eq, ← e] at this
  have h1 : L.rnd h = h := by simpa using hk 1 (List.length_pos_iff.2 hne)
  unfold meanR
  rw [← h1]
  refine hg.mono ?_
  rw [div_le_iff₀ hl, mul_comm]
  exact this

omit hm hm1 in
/-- **C128, limits on a grid.**  If the losses are at least `l` and `l`, `2l`, ..., `n·l` are floats, the computed mean is at least `l`. -/
theorem C128_at_least {xs : List ℝ} (hne : xs ≠ []) {l : ℝ} (hk : ∀ k : Nat, k ≤ xs.length → L.rnd (k * l) = k * l)
    (hx : ∀ x ∈ xs, l ≤ x) : l ≤ meanR L xs := by
  obtain ⟨t, hp, e⟩ := hL.sum.2 xs hne
  have hl : (0 : ℝ) < xs.length := by exact_mod_cast List.length_pos_iff.2 hne
  have := tree_ge hg.toMonoRounding t (M := l) (by rw [hp.length_eq]; exact hk) (fun v hv => hx v (hp.mem_iff.1 hv))
  rw [hp.length_eq, ← e] at this
  have h1 : L.rnd l = l := by simpa using hk 1 (List.length_pos_iff.2 hne)
  unfold meanR
  rw [← h1]
  refine hg.mono ?_
  rw [le_div_iff₀ hl, mul_comm]
  exact this

/-- **C128, limits on a grid.**  Without `pairwise_CI`, with finite losses within valid limits that are infinite or on a grid, the
table is produced for every outcome of the bootstrap draws. -/
theorem C128_table_grid {tbl : LossTable} {refMethod : Str}
    {c : ℝ} (h0 : 0 < c) (hc1 : 2 * tiny < 1 - c) {methodEB : EBMethod} (hme : methodEB ≠ .other)
    {limits : List (Str × (Flt ℝ × Flt ℝ))} {draws : Str → Str → Draws}
    (hd : methodEB = .boot → ∀ metric method, ValidDraws tbl.nrows 1000 (draws metric method).eb ∧
      ValidDraws tbl.nrows 1000 (draws metric method).test)
    (href : refMethod ∈ tbl.methods) (hrows : 1 ≤ tbl.nrows) (hn : tbl.nrows * u ≤ 1 / 1000000) (hmetrics : tbl.metrics ≠ [])
    (hfin : ∀ metric ∈ tbl.metrics, ∃ lower upper, LimitsOf limits metric lower upper ∧
      ValidLimits lower upper ∧ SafeLimits tiny G tbl.nrows lower upper ∧
      GridLimit L.rnd tbl.nrows lower ∧ GridLimit L.rnd tbl.nrows upper ∧
      ∀ method ∈ tbl.methods, ∃ xs : List ℝ,
        HasLoss tbl metric method (finVec xs) ∧ xs.length = tbl.nrows ∧ Within lower upper xs ∧ ∀ x ∈ xs, G x) :
    ∃ out, lossSummaryTableR L tbl refMethod false (.fin c) methodEB limits draws = .ok out ∧
      List.Forall₂ (fun metric row => List.Forall₂ (fun method cell =>
        (∃ xs : List ℝ, HasLoss tbl metric method (finVec xs) ∧ cell.1 = .fin (meanR L xs)) ∧
        cell.2.1 ≠ .nan ∧ .fin 0 ≤ cell.2.1 ∧
        (method = refMethod → cell.2.2 = .nan) ∧
        (method ≠ refMethod → ∃ p : ℝ, cell.2.2 = .fin p ∧ 0 ≤ p ∧ p ≤ 1))
        tbl.methods row) tbl.metrics out := by
  refine (C128_table_unpaired hL hg hm hm1 h0 hc1 hme hd href hrows hn hmetrics fun metric hmet => ?_).1 ?_
  · obtain ⟨lower, upper, a, b, s, -, -, d⟩ := hfin metric hmet
    exact ⟨lower, upper, a, b, s, d⟩
  · intro metric hmet method hmeth lower upper xs hlim hx
    obtain ⟨lo, hi, hlim', hv, -, g1, g2, hall⟩ := hfin metric hmet
    have hl : (lo, hi) = (lower, upper) :=
      ((limitsGet_spec limits metric _ _).2 hlim').symm.trans ((limitsGet_spec limits metric _ _).2 hlim)
    cases hl
    obtain ⟨ys, hy, hlen, hw, -⟩ := hall method hmeth
    have e : xs = ys := by
      have h := (column_ok_iff _ _ _ _).2 hx
      rw [(column_ok_iff _ _ _ _).2 hy] at h
      have h' : finVec ys = finVec xs := by simpa using h
      exact (List.map_injective_iff.2 (fun a b h => by simpa using h) h').symm
    subst e
    have hne : xs ≠ [] := by rintro rfl; simp at hlen; omega
    rw [← hlen] at g1 g2
    constructor
    · cases lower with
      | fin l => exact Flt.fin_le_fin.2 (C128_at_least hL hg hne g1 fun x hx' => Flt.fin_le_fin.1 (hw x hx').1)
      | ninf => simp
      | pinf => exact absurd rfl hv.2.2.2.1
      | nan => exact absurd rfl hv.1
    · cases upper with
      | fin l => exact Flt.fin_le_fin.2 (C128_at_most hL hg hne g2 fun x hx' => Flt.fin_le_fin.1 (hw x hx').2)
      | pinf => simp
      | ninf => exact absurd rfl hv.2.2.2.2
      | nan => exact absurd rfl hv.2.1


end Mlp.Props
