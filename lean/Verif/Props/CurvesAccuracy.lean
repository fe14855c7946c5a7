import Verif.Props.CurvesRound

/-!
# Properties C105 and C106: when the curves succeed in floating point arithmetic, and how accurate they are
-/

set_option linter.unusedSectionVars false

namespace Mlp.Props
open Mlp.Util Mlp.Perf Mlp.PerfR Mlp.Spec Mlp.Lemmas Mlp.Round

section
variable {K : Type} [Field K] [LinearOrder K] [IsStrictOrderedRing K] {rnd : K → K} {sumR : List K → K}

/-! ## Errors of the counts -/

section
variable {y : List Bool} {s : List K} {W : Option (List (List K))} (h : CurveInput y s W)
  {w : List K} (hw : w ∈ weightRows y.length W)
include h hw

/-- The samples in the order of decreasing score. -/
theorem sorted_samples : ∃ T : List (Sample K), T.Perm (samples y s w) ∧
    (T.map fun a => a.score) = reorder (descIdx s) s ∧ (T.map fun a => a.label) = reorder (descIdx s) y ∧
    (T.map fun a => a.weight) = reorder (descIdx s) w := by
  have hl := h.length
  have hwl := (h.weights w hw).1
  refine ⟨reorder (descIdx s) (samples y s w), reorder_perm ?_, ?_, ?_, ?_⟩
  · unfold IsPerm
    rw [samples_length hl hwl, ← hl]; exact descIdx_perm s
  · rw [← reorder_map, samples_scores hl hwl]
  · rw [← reorder_map, samples_labels hl hwl]
  · rw [← reorder_map, samples_weights hl hwl]

/-- The sums of the weights up to the end of a group are the exact counts. -/
theorem exact_sums {i : Nat} (hi : i ∈ groupEnds (reorder (descIdx s) s)) :
    ((List.zipWith (fun (b : Bool) (v : K) => boolNum b * v) (reorder (descIdx s) y)
        (reorder (descIdx s) w)).take (i + 1)).sum =
        posAbove (samples y s w) (.fin ((reorder (descIdx s) s).getD i 0)) ∧
      ((reorder (descIdx s) w).take (i + 1)).sum =
        posAbove (samples y s w) (.fin ((reorder (descIdx s) s).getD i 0)) +
          negAbove (samples y s w) (.fin ((reorder (descIdx s) s).getD i 0)) := by
  obtain ⟨T, hp, e1, e2, e3⟩ := sorted_samples h hw
  have hne : T ≠ [] := by
    rintro rfl
    exact CurveInput.ss_ne h e1.symm
  have hlt := groupEnds_lt (CurveInput.ss_ne h) i hi
  have hsort := descIdx_sorted s
  have hget : (reorder (descIdx s) s)[i]? = some ((reorder (descIdx s) s).getD i 0) := by
    rw [List.getD_eq_getElem?_getD, List.getElem?_eq_getElem hlt]; rfl
  generalize (reorder (descIdx s) s).getD i 0 = θ at *
  rw [← e1] at hi hsort hget
  have f1 : List.zipWith (fun (b : Bool) (v : K) => boolNum b * v) (reorder (descIdx s) y) (reorder (descIdx s) w) =
      T.map fun a => if a.label then a.weight else 0 := by
    rw [← e2, ← e3, List.zipWith_map, List.zipWith_self]
    refine List.map_congr_left fun a _ => ?_
    cases a.label <;> simp [boolNum]
  have f2 : reorder (descIdx s) w = T.map fun a => if (fun _ => true) a then a.weight else 0 := by
    rw [← e3]; simp
  constructor
  · rw [f1, take_map_sum (fun a => a.label), prefix_wsum hsort hi hne hget, wsum_perm hp]
    rfl
  · rw [f2, take_map_sum, prefix_wsum hsort hi hne hget, wsum_perm hp,
      wsum_split _ _ fun a => a.label]
    unfold posAbove negAbove
    congr 1
    · exact wsum_congr fun a _ => by rw [Bool.true_and, Bool.and_comm]
    · exact wsum_congr fun a _ => by rw [Bool.true_and, Bool.and_comm]

/-- The sums of the masked weights are the class totals. -/
theorem mask_sums : (mask ((reorder (descIdx s) y).map fun b => !b) (reorder (descIdx s) w)).sum =
      negTotal (samples y s w) ∧
    (mask (reorder (descIdx s) y) (reorder (descIdx s) w)).sum = posTotal (samples y s w) := by
  obtain ⟨T, hp, -, e2, e3⟩ := sorted_samples h hw
  constructor
  · rw [← e2, ← e3, List.map_map]
    exact (mask_sum T _).trans (wsum_perm hp _)
  · rw [← e2, ← e3]
    exact (mask_sum T _).trans (wsum_perm hp _)

theorem above_le_total (θ : Flt K) : posAbove (samples y s w) θ ≤ posTotal (samples y s w) ∧
    negAbove (samples y s w) θ ≤ negTotal (samples y s w) ∧ 0 ≤ posAbove (samples y s w) θ ∧
    0 ≤ negAbove (samples y s w) θ := by
  have hp := h.weight_pos hw
  refine ⟨?_, ?_, wsum_nonneg hp _, wsum_nonneg hp _⟩
  · exact wsum_mono hp fun a _ ha => by rw [Bool.and_eq_true] at ha; exact ha.1
  · exact wsum_mono hp fun a _ ha => by rw [Bool.and_eq_true] at ha; exact ha.1

/-- The total weight of the samples. -/
theorem totals_nonneg : 0 ≤ posTotal (samples y s w) ∧ 0 ≤ negTotal (samples y s w) :=
  ⟨wsum_nonneg (h.weight_pos hw) _, wsum_nonneg (h.weight_pos hw) _⟩

variable {u : K} (hu : 0 ≤ u) (he : RelError u rnd) (hnu : y.length * u ≤ 1 / 100)
include hu he hnu

theorem sum_err {l : List K} (hl : ∀ v ∈ l, 0 ≤ v) (hlen : l.length ≤ y.length) :
    |foldR rnd 0 l - l.sum| ≤ 2 * (y.length * u) * l.sum := by
  refine (foldR_error hu he hl).trans (mul_le_mul_of_nonneg_right ?_ (List.sum_nonneg hl))
  have h1 : (1 + u) ^ l.length ≤ (1 + u) ^ y.length := pow_le_pow_right₀ (by linarith) hlen
  have h2 := pow_one_add_le hu (n := y.length) (by linarith)
  linarith

theorem tp_err {i : Nat} (hi : i ∈ groupEnds (reorder (descIdx s) s)) :
    |tpR rnd (reorder (descIdx s) y) (reorder (descIdx s) w) i -
        posAbove (samples y s w) (.fin ((reorder (descIdx s) s).getD i 0))| ≤
      2 * (y.length * u) * posAbove (samples y s w) (.fin ((reorder (descIdx s) s).getD i 0)) := by
  obtain ⟨hl, hp, hne, hyl⟩ := CurveInput.wt_facts h hw
  rw [← (exact_sums h hw hi).1]
  refine sum_err h hw hu he hnu (fun v hv => masked_nonneg hp v (List.mem_of_mem_take hv)) ?_
  simp [hl, hyl]

theorem all_err {i : Nat} (hi : i ∈ groupEnds (reorder (descIdx s) s)) :
    |allR rnd (reorder (descIdx s) w) i - (posAbove (samples y s w) (.fin ((reorder (descIdx s) s).getD i 0)) +
        negAbove (samples y s w) (.fin ((reorder (descIdx s) s).getD i 0)))| ≤
      2 * (y.length * u) * (posAbove (samples y s w) (.fin ((reorder (descIdx s) s).getD i 0)) +
        negAbove (samples y s w) (.fin ((reorder (descIdx s) s).getD i 0))) := by
  obtain ⟨hl, hp, hne, hyl⟩ := CurveInput.wt_facts h hw
  rw [← (exact_sums h hw hi).2]
  refine sum_err h hw hu he hnu (fun v hv => (hp v (List.mem_of_mem_take hv)).le) ?_
  simp [hl, hyl]

omit hw he in
theorem u_le : u ≤ y.length * u ∧ 0 ≤ y.length * u := by
  have h1 : (1 : K) ≤ y.length := by
    have := List.length_pos_iff.2 h.nonempty
    exact_mod_cast this
  constructor
  · nlinarith
  · positivity

theorem fp_err {i : Nat} (hi : i ∈ groupEnds (reorder (descIdx s) s)) :
    |fpR rnd (reorder (descIdx s) y) (reorder (descIdx s) w) i -
        negAbove (samples y s w) (.fin ((reorder (descIdx s) s).getD i 0))| ≤
      6 * (y.length * u) * (posTotal (samples y s w) + negTotal (samples y s w)) := by
  have h1 := tp_err h hw hu he hnu hi
  have h2 := all_err h hw hu he hnu hi
  obtain ⟨t1, t2, t3, t4⟩ := above_le_total h hw (.fin ((reorder (descIdx s) s).getD i 0))
  obtain ⟨u1, u2⟩ := u_le h hu hnu
  unfold fpR
  have h3 := he (allR rnd (reorder (descIdx s) w) i - tpR rnd (reorder (descIdx s) y) (reorder (descIdx s) w) i)
  generalize allR rnd (reorder (descIdx s) w) i = C at *
  generalize tpR rnd (reorder (descIdx s) y) (reorder (descIdx s) w) i = T at *
  generalize posAbove (samples y s w) (.fin ((reorder (descIdx s) s).getD i 0)) = P at *
  generalize negAbove (samples y s w) (.fin ((reorder (descIdx s) s).getD i 0)) = N at *
  generalize posTotal (samples y s w) = PT at *
  generalize negTotal (samples y s w) = NT at *
  generalize (y.length : K) * u = e at *
  have hWT : 0 ≤ PT + NT := by linarith
  have a1 : |C - T - N| ≤ 4 * e * (PT + NT) := by
    have : C - T - N = (C - (P + N)) - (T - P) := by ring
    rw [this]
    refine (abs_sub _ _).trans ?_
    have : 2 * e * (P + N) ≤ 2 * e * (PT + NT) := mul_le_mul_of_nonneg_left (by linarith) (by linarith)
    have : 2 * e * P ≤ 2 * e * (PT + NT) := mul_le_mul_of_nonneg_left (by linarith) (by linarith)
    linarith
  have a2 : |C - T| ≤ 3 / 2 * (PT + NT) := by
    rw [abs_le] at a1 ⊢
    have : 4 * e * (PT + NT) ≤ 4 * (1 / 100) * (PT + NT) :=
      mul_le_mul_of_nonneg_right (by linarith) hWT
    constructor <;> linarith
  have a3 : |rnd (C - T) - (C - T)| ≤ e * (3 / 2 * (PT + NT)) :=
    h3.trans (mul_le_mul u1 a2 (abs_nonneg _) (by linarith))
  have : rnd (C - T) - N = (rnd (C - T) - (C - T)) + (C - T - N) := by ring
  rw [this]
  refine (abs_add_le _ _).trans ?_
  have : 0 ≤ e * (PT + NT) := mul_nonneg u2 hWT
  nlinarith

end

/-! ## The checks of lines 118 and 119 -/

theorem rel_ge {u x : K} (he : RelError u rnd) (hx : 0 ≤ x) : (1 - u) * x ≤ rnd x := by
  have := (abs_le.1 (he x)).1
  rw [abs_of_nonneg hx] at this
  linarith

theorem rel_abs {u : K} (he : RelError u rnd) (x : K) : |rnd x| ≤ (1 + u) * |x| := by
  have h1 := he x
  have h2 : |rnd x| ≤ |rnd x - x| + |x| := by
    have : rnd x = (rnd x - x) + x := by ring
    calc |rnd x| = |(rnd x - x) + x| := by rw [← this]
      _ ≤ _ := abs_add_le _ _
  linarith

/-- When the difference is small enough the rounded check passes. -/
theorem allcloseR_of (hr : FloatRounding rnd) {u : K} (hu : 0 ≤ u) (he : RelError u rnd) (hu1 : u ≤ 1 / 100) {a b c : K}
    (hb : 98 / 100 * c ≤ b) (hc : 0 ≤ c)
    (h : |a - b| ≤ 9 / 10 * (1 / 100000000 + 1 / 100000 * c)) : allcloseR rnd a b = true := by
  unfold allcloseR
  rw [decide_eq_true_eq]
  have hb0 : 0 ≤ b := le_trans (by positivity) hb
  rw [abs_of_nonneg hb0]
  have h1 := rel_abs he (a - b)
  have h2 : (1 - u) * (1 / 100000000) ≤ rnd (1 / 100000000) := rel_ge he (by norm_num)
  have h3 : (1 - u) * (1 / 100000) ≤ rnd (1 / 100000) := rel_ge he (by norm_num)
  have h30 : (0 : K) ≤ rnd (1 / 100000) := hr.nonneg (by norm_num)
  have h4 : (1 - u) * (rnd (1 / 100000) * b) ≤ rnd (rnd (1 / 100000) * b) := rel_ge he (by positivity)
  have h40 : 0 ≤ rnd (rnd (1 / 100000) * b) := hr.nonneg (by positivity)
  have h20 : (0 : K) ≤ rnd (1 / 100000000) := hr.nonneg (by norm_num)
  have h5 : (1 - u) * (rnd (1 / 100000000) + rnd (rnd (1 / 100000) * b)) ≤
    rnd (rnd (1 / 100000000) + rnd (rnd (1 / 100000) * b)) := rel_ge he (by positivity)
  generalize rnd (rnd (1 / 100000000) + rnd (rnd (1 / 100000) * b)) = R at *
  generalize rnd (rnd (1 / 100000) * b) = Q at *
  generalize rnd ((1 : K) / 100000000) = A at *
  generalize rnd ((1 : K) / 100000) = B at *
  have k1 : |rnd (a - b)| ≤ 101 / 100 * (9 / 10 * (1 / 100000000 + 1 / 100000 * c)) := by
    refine h1.trans (mul_le_mul (by linarith) h (abs_nonneg _) (by norm_num))
  have k2 : 99 / 100 * (1 / 100000000) ≤ A := le_trans (mul_le_mul_of_nonneg_right (by linarith) (by norm_num)) h2
  have k3 : 99 / 100 * (1 / 100000) ≤ B := le_trans (mul_le_mul_of_nonneg_right (by linarith) (by norm_num)) h3
  have k4 : 99 / 100 * (99 / 100 * (1 / 100000) * (98 / 100 * c)) ≤ Q := by
    refine le_trans ?_ h4
    refine mul_le_mul (by linarith) (mul_le_mul k3 hb (by positivity) h30) (by positivity) (by linarith)
  have k5 : 99 / 100 * (A + Q) ≤ R :=
    le_trans (mul_le_mul_of_nonneg_right (by linarith) (by linarith)) h5
  linarith

theorem mask_length_le (m : List Bool) (l : List K) : (mask m l).length ≤ l.length := by
  induction m generalizing l with
  | nil => simp [mask]
  | cons b m ih =>
    cases l with
    | nil => cases b <;> simp [mask]
    | cons a l => cases b <;> simp [mask] <;> have := ih l <;> omega

theorem mask_mem {m : List Bool} {l : List K} {v : K} (hv : v ∈ mask m l) : v ∈ l := by
  induction m generalizing l with
  | nil => simp [mask] at hv
  | cons b m ih =>
    cases l with
    | nil => cases b <;> simp [mask] at hv
    | cons a l =>
      have := @ih l
      cases b
      · simp [mask] at hv this ⊢; exact Or.inr (by tauto)
      · simp [mask] at hv this ⊢
        tauto

theorem groupEnds_last_mem {ss : List K} : ss.length - 1 ∈ groupEnds ss := by simp [groupEnds]

section
variable (hr : FloatRounding rnd) {y : List Bool} {s : List K} {W : Option (List (List K))} (h : CurveInput y s W)
  {w : List K} (hw : w ∈ weightRows y.length W) {u : K} (hu : 0 ≤ u) (he : RelError u rnd)
include hr h hw hu he

omit hr hu he in
theorem last_facts : (reorder (descIdx s) y).length - 1 ∈ groupEnds (reorder (descIdx s) s) ∧
    posAbove (samples y s w) (.fin ((reorder (descIdx s) s).getD ((reorder (descIdx s) y).length - 1) 0)) =
      posTotal (samples y s w) ∧
    negAbove (samples y s w) (.fin ((reorder (descIdx s) s).getD ((reorder (descIdx s) y).length - 1) 0)) =
      negTotal (samples y s w) := by
  obtain ⟨hl, hp, hne, hyl⟩ := CurveInput.wt_facts h hw
  have hss : (reorder (descIdx s) s).length = s.length :=
    (reorder_perm (l := s) (σ := descIdx s) (descIdx_perm s)).length_eq
  have e : (reorder (descIdx s) y).length - 1 = (reorder (descIdx s) s).length - 1 := by
    rw [hyl, hss, h.length]
  have hpos : 0 < (reorder (descIdx s) s).length := List.length_pos_iff.2 (CurveInput.ss_ne h)
  rw [e]
  have hge : ∀ a ∈ samples y s w,
      Flt.fin ((reorder (descIdx s) s).getD ((reorder (descIdx s) s).length - 1) 0) ≤ .fin a.score := by
    intro a ha
    have hm := h.score_mem hw a ha
    rw [← (reorder_perm (l := s) (σ := descIdx s) (descIdx_perm s)).mem_iff] at hm
    obtain ⟨k, hk, e⟩ := List.getElem_of_mem hm
    rw [← e, List.getD_eq_getElem?_getD, List.getElem?_eq_getElem (by omega), Option.getD_some, Flt.fin_le_fin]
    rcases Nat.lt_or_ge k ((reorder (descIdx s) s).length - 1) with hlt | hge
    · exact List.pairwise_iff_getElem.1 (descIdx_sorted s) _ _ hk (by omega) hlt
    · have : k = (reorder (descIdx s) s).length - 1 := by omega
      subst this; exact le_rfl
  exact ⟨groupEnds_last_mem, above_total hge⟩

omit hr in
theorem closeRow_ok (hr : FloatRounding rnd) (hs : SumError u sumR) (hnu : y.length * u ≤ 1 / 1000000)
    (hneg : (∃ b ∈ y, b = false) → 9 * (y.length * u) * (posTotal (samples y s w) + negTotal (samples y s w)) ≤
      1 / 100000000 + 1 / 100000 * negTotal (samples y s w)) :
    closeRow rnd sumR (reorder (descIdx s) y) (reorder (descIdx s) w) = true := by
  obtain ⟨hl, hp, hne, hyl⟩ := CurveInput.wt_facts h hw
  obtain ⟨hm, e1, e2⟩ := last_facts h hw
  have hnu' : y.length * u ≤ 1 / 100 := hnu.trans (by norm_num)
  obtain ⟨u1, u2⟩ := u_le h hu hnu'
  obtain ⟨p0, n0⟩ := totals_nonneg h hw
  have hmask : ∀ m : List Bool, |sumR (mask m (reorder (descIdx s) w)) - (mask m (reorder (descIdx s) w)).sum| ≤
      2 * (y.length * u) * (mask m (reorder (descIdx s) w)).sum := by
    intro m
    have hnn : ∀ v ∈ mask m (reorder (descIdx s) w), 0 ≤ v := fun v hv => (hp v (mask_mem hv)).le
    refine (hs _ hnn).trans (mul_le_mul_of_nonneg_right ?_ (List.sum_nonneg hnn))
    have h1 : (1 + u) ^ (mask m (reorder (descIdx s) w)).length ≤ (1 + u) ^ y.length :=
      pow_le_pow_right₀ (by linarith) ((mask_length_le _ _).trans (by rw [hl, hyl]))
    have h2 := pow_one_add_le hu (n := y.length) (by linarith)
    linarith
  obtain ⟨m1, m2⟩ := mask_sums h hw
  have t1 := tp_err h hw hu he hnu' hm
  have f1 := fp_err h hw hu he hnu' hm
  have b1 := hmask ((reorder (descIdx s) y).map fun b => !b)
  have b2 := hmask (reorder (descIdx s) y)
  rw [e1] at t1
  rw [e2] at f1
  rw [m1] at b1
  rw [m2] at b2
  unfold closeRow
  rw [Bool.and_eq_true]
  constructor
  · by_cases hy : ∃ b ∈ y, b = false
    · have hc := hneg hy
      generalize fpR rnd (reorder (descIdx s) y) (reorder (descIdx s) w) ((reorder (descIdx s) y).length - 1) = F at *
      generalize sumR (mask ((reorder (descIdx s) y).map fun b => !b) (reorder (descIdx s) w)) = B at *
      generalize posTotal (samples y s w) = P at *
      generalize negTotal (samples y s w) = N at *
      generalize (y.length : K) * u = e at *
      have q1 : 2 * e * N ≤ 2 * (1 / 1000000) * N := mul_le_mul_of_nonneg_right (by linarith) n0
      have q2 : 0 ≤ e * P := mul_nonneg u2 p0
      have q3 : 0 ≤ e * N := mul_nonneg u2 n0
      refine allcloseR_of hr hu he (by linarith) (c := N) ?_ n0 ?_
      · have := (abs_le.1 b1).1
        linarith
      · have : F - B = (F - N) - (B - N) := by ring
        rw [this]
        refine (abs_sub _ _).trans ((add_le_add f1 b1).trans ?_)
        nlinarith
    · have hall : ∀ b ∈ reorder (descIdx s) y, b = true := by
        intro b hb
        have hpm := reorder_perm (l := y) (σ := descIdx s) (by unfold IsPerm; rw [← h.length]; exact descIdx_perm s)
        have := hpm.mem_iff.1 hb
        cases b
        · exact absurd ⟨_, this, rfl⟩ hy
        · rfl
      have hF : ∀ i, fpR rnd (reorder (descIdx s) y) (reorder (descIdx s) w) i = 0 := by
        intro i
        unfold fpR
        rw [tpR_all_true hl hall, sub_self, hr.zero]
      have hB : negTotal (samples y s w) = 0 := by
        refine wsum_zero fun a ha => ?_
        have hmem : a.label ∈ y := by
          rw [← samples_labels h.length (h.weights w hw).1]
          exact List.mem_map_of_mem ha
        cases hb : a.label
        · exact absurd ⟨_, hmem, hb⟩ hy
        · rfl
      rw [hB, mul_zero, sub_zero] at b1
      have := abs_nonpos_iff.1 b1
      rw [hF, this]
      refine allcloseR_of hr hu he (by linarith) (c := 0) (by simp) le_rfl (by simp)
  · generalize tpR rnd (reorder (descIdx s) y) (reorder (descIdx s) w) ((reorder (descIdx s) y).length - 1) = T at *
    generalize sumR (mask (reorder (descIdx s) y) (reorder (descIdx s) w)) = B at *
    generalize posTotal (samples y s w) = P at *
    generalize (y.length : K) * u = e at *
    have q1 : 2 * e * P ≤ 2 * (1 / 1000000) * P := mul_le_mul_of_nonneg_right (by linarith) p0
    refine allcloseR_of hr hu he (by linarith) (c := P) ?_ p0 ?_
    · have := (abs_le.1 b2).1
      linarith
    · have : T - B = (T - P) - (B - P) := by ring
      rw [this]
      refine (abs_sub _ _).trans ((add_le_add t1 b2).trans ?_)
      linarith

end

/-! ## Precision needs a positive count -/

theorem forall₂_zip_pos {f f' t : List K} (hf : List.Forall₂ (· ≤ ·) f f')
    (hb : ∀ p ∈ f.zip t, 0 < p.1 ∨ 0 < p.2) : ∀ p ∈ f'.zip t, 0 < p.1 ∨ 0 < p.2 := by
  induction hf generalizing t with
  | nil => simp
  | cons hab _ ih =>
    cases t with
    | nil => simp
    | cons c t =>
      intro p hp
      rw [List.zip_cons_cons] at hp hb
      rcases List.mem_cons.1 hp with rfl | hp
      · rcases hb _ List.mem_cons_self with h | h
        · exact Or.inl (lt_of_lt_of_le h hab)
        · exact Or.inr h
      · exact ih (fun q hq => hb q (List.mem_cons_of_mem _ hq)) p hp

theorem cummaxFrom_ge (a : K) (l : List K) : List.Forall₂ (· ≤ ·) l (cummaxFrom a l) :=
  (cummaxFrom_facts (fun _ => True) a l trivial fun _ _ => trivial).2.2.2

theorem zip_map_pos {f t : List K} (g : K → K) (hg : ∀ v, 0 < v → 0 < g v) (ht : ∀ v ∈ t, 0 < v) :
    ∀ p ∈ ((t.map g).zip t), 0 < p.1 ∨ 0 < p.2 := by
  intro p hp
  exact Or.inr (ht _ (List.of_mem_zip hp).2)

theorem pseudo_both (hr : FloatRounding rnd) {f t : List K} (hok : RowOK rnd f t)
    (hD : f.getLastD 0 = 0 → ∀ v ∈ t, 0 < v) :
    ∀ p ∈ (cummax (pseudoRowR rnd (0 :: f) (0 :: t)).1).tail.zip (pseudoRowR rnd (0 :: f) (0 :: t)).2.tail,
      0 < p.1 ∨ 0 < p.2 := by
  have hep := epsilonR_pos hr
  have hfne : f ≠ [] := by
    intro e
    have := hok.len
    rw [e] at this
    exact hok.ne (List.eq_nil_of_length_eq_zero this.symm)
  unfold pseudoRowR
  simp only [getLastD_cons_ne _ hfne, getLastD_cons_ne _ hok.ne, decide_eq_true_eq]
  by_cases c1 : f.getLastD 0 = 0
  · have ht := hD c1
    rw [if_pos c1, if_neg (ht _ (getLastD_mem' hok.ne)).ne']
    intro p hp
    exact Or.inr (ht _ (List.of_mem_zip hp).2)
  · rw [if_neg c1]
    by_cases c2 : t.getLastD 0 = 0
    · rw [if_pos c2]
      have hf : ∀ v ∈ f, 0 < v := by
        intro v hv
        obtain ⟨i, hi, rfl⟩ := List.getElem_of_mem hv
        have hi' : i < t.length := hok.len ▸ hi
        have hm : (f[i], t[i]) ∈ f.zip t := by
          rw [← List.getElem_zip (h := by simp; omega)]
          exact List.getElem_mem _
        rcases hok.both _ hm with h' | h'
        · exact h'
        · have := le_last hok.tmono (List.getElem_mem hi')
          rw [c2] at this
          exact absurd h' (not_lt.2 this)
      intro p hp
      have := (List.of_mem_zip hp).2
      rw [List.map_cons, List.tail_cons] at this
      obtain ⟨v, hv, e⟩ := List.mem_map.1 this
      rw [← e]
      exact Or.inr (hr.pos _ (mul_pos hep (hf v hv)))
    · rw [if_neg c2]
      exact forall₂_zip_pos (cummaxFrom_ge 0 f) hok.both

section
variable (hr : FloatRounding rnd) {y : List Bool} {s : List K} {W : Option (List (List K))} (h : CurveInput y s W)
include hr h

omit hr in
theorem rawRow_last (w : List K) : (rawRow rnd y s w).1.getLastD 0 =
    fpR rnd (reorder (descIdx s) y) (reorder (descIdx s) w) ((reorder (descIdx s) y).length - 1) := by
  have hylen : (reorder (descIdx s) y).length = y.length :=
    (reorder_perm (l := y) (σ := descIdx s) (by unfold IsPerm; rw [← h.length]; exact descIdx_perm s)).length_eq
  have hss : (reorder (descIdx s) s).length = s.length :=
    (reorder_perm (l := s) (σ := descIdx s) (descIdx_perm s)).length_eq
  unfold rawRow
  rw [List.getLastD_eq_getLast?, List.getLast?_map, groupEnds_last, hss, hylen, h.length]
  rfl

theorem rawRow_all_true {w : List K} (hw : w ∈ weightRows y.length W) (hy : ∀ b ∈ y, b = true) :
    ∀ v ∈ (rawRow rnd y s w).2, 0 < v := by
  obtain ⟨hl, hp, hne, hyl⟩ := CurveInput.wt_facts h hw
  intro v hv
  obtain ⟨i, -, rfl⟩ := List.mem_map.1 hv
  rw [tpR_all_true hl]
  · exact allR_pos hr hp hne i
  · intro b hb
    have hpm := reorder_perm (l := y) (σ := descIdx s) (by unfold IsPerm; rw [← h.length]; exact descIdx_perm s)
    exact hy b (hpm.mem_iff.1 hb)

theorem precision_check {w : List K} (hw : w ∈ weightRows y.length W)
    (hD : (rawRow rnd y s w).1.getLastD 0 = 0 → ∀ v ∈ (rawRow rnd y s w).2, 0 < v) :
    (okD [] (copySecond (precisionRowR rnd (cummax (countRow rnd y s w).1) (countRow rnd y s w).2))).all (fun v =>
      (Flt.fin 0).le v && v.le (.fin 1)) = true := by
  obtain ⟨xs, e, -, hx⟩ := precisionRowR_ok hr (countRow_fin hr h hw).done.toRowFin
    (pseudo_both hr (rawRow_ok hr h hw) hD)
  rw [e, okD, List.all_eq_true]
  intro v hv
  obtain ⟨x, hxm, rfl⟩ := List.mem_map.1 hv
  rw [Bool.and_eq_true, Flt.le_iff, Flt.le_iff, Flt.fin_le_fin, Flt.fin_le_fin]
  exact ⟨⟨by simp, (hx x hxm).1⟩, by simp, (hx x hxm).2⟩

/-- **C105, without weights.**  Without weights none of the three curves fails in floating point
arithmetic, as long as the number of samples is small enough for integers to be exact. -/
theorem C105_unweighted (hW : W = none) (hN : ∀ k : Nat, k ≤ y.length → rnd (k : K) = k) :
    (∃ v, rocCurveR rnd sumR y (finVec s) none = .ok v) ∧
      (∃ v, recallPrecisionCurveR rnd sumR y (finVec s) none = .ok v) ∧
      ∃ v, prgCurveR rnd sumR y (finVec s) none = .ok v := by
  subst hW
  have e1 := rocR_eq (sumR := sumR) hr h fun _ => hN
  have e2 := rpR_eq (sumR := sumR) hr h fun _ => hN
  have e3 := prgR_eq (sumR := sumR) hr h fun _ => hN
  rw [if_pos (by rfl)] at e1 e3
  refine ⟨⟨_, e1⟩, ?_, ⟨_, e3⟩⟩
  rw [if_pos] at e2
  · exact ⟨_, e2⟩
  · simp only [closeAll, Bool.true_and, List.all_eq_true]
    intro w hw
    refine List.all_eq_true.1 (precision_check hr h hw fun h0 => rawRow_all_true hr h hw ?_)
    have hw1 : w = List.replicate y.length 1 := by simpa [weightRows] using hw
    rw [rawRow_last h] at h0
    have hpm := reorder_perm (l := y) (σ := descIdx s) (by unfold IsPerm; rw [← h.length]; exact descIdx_perm s)
    have hylen := hpm.length_eq
    have hypos := List.length_pos_iff.2 h.nonempty
    have hrep : reorder (descIdx s) (List.replicate y.length (1 : K)) = List.replicate y.length 1 := by
      have hp := reorder_perm (l := List.replicate y.length (1 : K)) (σ := descIdx s) (by
        unfold IsPerm; rw [List.length_replicate, ← h.length]; exact descIdx_perm s)
      exact List.perm_replicate.1 hp
    have hN' : ∀ k : Nat, k ≤ (reorder (descIdx s) y).length → rnd (k : K) = k := by rw [hylen]; exact hN
    rw [hw1, hrep, ← hylen, fpR_ones hN' (by omega), tpR_ones hN', List.take_of_length_le (by omega)] at h0
    have h1 := countP_not_add (reorder (descIdx s) y)
    have h2 : ((((reorder (descIdx s) y).countP fun b => b : Nat)) : K) = ((reorder (descIdx s) y).length : K) := by
      have : (((reorder (descIdx s) y).length - 1 : Nat) : K) = ((reorder (descIdx s) y).length : K) - 1 := by
        rw [Nat.cast_sub (by omega)]; simp
      rw [this] at h0
      linarith
    have h3 : ((reorder (descIdx s) y).countP fun b => b) = (reorder (descIdx s) y).length := by exact_mod_cast h2
    rw [List.countP_eq_length] at h3
    intro b hb
    exact h3 b (hpm.mem_iff.2 hb)

variable {u : K} (hu : 0 ≤ u) (he : RelError u rnd) (hs : SumError u sumR) (hnu : y.length * u ≤ 1 / 1000000)
include hu he hs hnu

/-- **C105, with weights.**  With `n` samples and rounding errors of at most `u`, the ROC and the
precision-recall-gain curve succeed if `n u` is at most `1e-6` and, for rows with negative samples, `9 n u`
times the total weight is at most `1e-8` plus `1e-5` times the weight of the negative samples. -/
theorem C105_weighted (hN : W = none → ∀ k : Nat, k ≤ y.length → rnd (k : K) = k)
    (hneg : (∃ b ∈ y, b = false) → ∀ w ∈ weightRows y.length W,
      9 * (y.length * u) * (posTotal (samples y s w) + negTotal (samples y s w)) ≤
        1 / 100000000 + 1 / 100000 * negTotal (samples y s w)) :
    (∃ v, rocCurveR rnd sumR y (finVec s) (W.map (finMat y.length)) = .ok v) ∧
      ∃ v, prgCurveR rnd sumR y (finVec s) (W.map (finMat y.length)) = .ok v := by
  have hc : closeAll rnd sumR y s W = true := by
    cases W with
    | none => rfl
    | some W =>
      simp only [closeAll, List.all_eq_true]
      exact fun w hw => closeRow_ok h hw hu he hr hs hnu fun hy => hneg hy w hw
  rw [rocR_eq hr h hN, prgR_eq hr h hN, if_pos hc, if_pos hc]
  exact ⟨⟨_, rfl⟩, ⟨_, rfl⟩⟩

/-- **C105, recall-precision curve.**  It succeeds if in addition `6 n u` times the total weight is less than
the weight of the negative samples (if there are any). -/
theorem C105_recall_precision (hN : W = none → ∀ k : Nat, k ≤ y.length → rnd (k : K) = k)
    (hneg : (∃ b ∈ y, b = false) → ∀ w ∈ weightRows y.length W,
      9 * (y.length * u) * (posTotal (samples y s w) + negTotal (samples y s w)) ≤
        1 / 100000000 + 1 / 100000 * negTotal (samples y s w) ∧
      6 * (y.length * u) * (posTotal (samples y s w) + negTotal (samples y s w)) < negTotal (samples y s w)) :
    ∃ v, recallPrecisionCurveR rnd sumR y (finVec s) (W.map (finMat y.length)) = .ok v := by
  have hc : closeAll rnd sumR y s W = true := by
    cases W with
    | none => rfl
    | some W =>
      simp only [closeAll, List.all_eq_true]
      exact fun w hw => closeRow_ok h hw hu he hr hs hnu fun hy => (hneg hy w hw).1
  rw [rpR_eq hr h hN, if_pos]
  · exact ⟨_, rfl⟩
  · rw [hc, Bool.true_and, List.all_eq_true]
    intro w hw
    refine precision_check hr h hw fun h0 => ?_
    by_cases hy : ∃ b ∈ y, b = false
    · exfalso
      obtain ⟨hm, -, e2⟩ := last_facts h hw
      have hf := fp_err h hw hu he (hnu.trans (by norm_num)) hm
      rw [rawRow_last h] at h0
      rw [h0, e2, zero_sub, abs_neg, abs_of_nonneg (totals_nonneg h hw).2] at hf
      exact absurd hf (not_le.2 (hneg hy w hw).2)
    · refine rawRow_all_true hr h hw fun b hb => ?_
      cases b
      · exact absurd ⟨_, hb, rfl⟩ hy
      · rfl

end

/-! ## Accuracy -/

section
variable (hr : FloatRounding rnd) {y : List Bool} {s : List K} {W : Option (List (List K))} (h : CurveInput y s W)
include hr h

omit hr in
theorem thresholds_eq : thresholdsOf s = .pinf :: (groupEnds (reorder (descIdx s) s)).map fun i =>
    Flt.fin ((reorder (descIdx s) s).getD i 0) := by
  unfold thresholdsOf groupScores
  rw [reorder_eq_map 0 (groupEnds_lt (CurveInput.ss_ne h)), finVec, List.map_map]
  rfl

omit hr h in
theorem forall₂_map_map {α β γ : Type} {R : β → γ → Prop} (l : List α) (g : α → β) (g' : α → γ)
    (h : ∀ a ∈ l, R (g a) (g' a)) : List.Forall₂ R (l.map g) (l.map g') := by
  induction l with
  | nil => exact .nil
  | cons a l ih => exact .cons (h a List.mem_cons_self) (ih fun b hb => h b (List.mem_cons_of_mem _ hb))

omit hr h in
/-- The running maximum of approximate values of a function that does not go down is as accurate. -/
theorem cummaxFrom_approx {β : Type} {g : β → K} {δ : K} {l : List K} {θs : List β} (acc : K)
    (hg : (θs.map g).Pairwise (· ≤ ·)) (ha : ∀ θ ∈ θs, acc ≤ g θ + δ)
    (hl : List.Forall₂ (fun θ v => |v - g θ| ≤ δ) θs l) :
    List.Forall₂ (fun θ v => |v - g θ| ≤ δ) θs (cummaxFrom acc l) := by
  induction hl generalizing acc with
  | nil => exact .nil
  | @cons θ v θs l hv _ ih =>
    rw [List.map_cons, List.pairwise_cons] at hg
    have hacc := ha θ List.mem_cons_self
    have hv' := abs_le.1 hv
    refine .cons ?_ (ih (max acc v) hg.2 fun θ' hθ' => ?_)
    · rw [abs_le]
      constructor
      · have := le_max_right acc v
        linarith
      · have : max acc v ≤ g θ + δ := max_le hacc (by linarith)
        linarith
    · refine max_le (ha θ' (List.mem_cons_of_mem _ hθ')) ?_
      have := hg.1 (g θ') (List.mem_map_of_mem hθ')
      linarith

omit hr h in
theorem cummax_approx {β : Type} {g : β → K} {δ : K} {l : List K} {θs : List β}
    (hg : (θs.map g).Pairwise (· ≤ ·)) (hl : List.Forall₂ (fun θ v => |v - g θ| ≤ δ) θs l) :
    List.Forall₂ (fun θ v => |v - g θ| ≤ δ) θs (cummax l) := by
  cases hl with
  | nil => exact .nil
  | cons hv hl =>
    rename_i θ v θs l
    rw [List.map_cons, List.pairwise_cons] at hg
    refine .cons hv (cummaxFrom_approx v hg.2 (fun θ' hθ' => ?_) hl)
    have := hg.1 (g θ') (List.mem_map_of_mem hθ')
    have := (abs_le.1 hv).2
    linarith

omit hr h in
/-- The error of a ratio. -/
theorem ratio_err {a b A B x y : K} (hB : 0 < B) (hA0 : 0 ≤ A) (hAB : A ≤ B) (hb : 0 < b) (ha : |a - A| ≤ x)
    (hb' : |b - B| ≤ y) : |a / b - A / B| ≤ (x + y) / b := by
  have hy : 0 ≤ y := (abs_nonneg _).trans hb'
  have e : a / b - A / B = ((a - A) + A / B * (B - b)) / b := by
    field_simp
    ring
  rw [e, abs_div, abs_of_pos hb]
  refine div_le_div_of_nonneg_right ?_ hb.le
  refine (abs_add_le _ _).trans (add_le_add ha ?_)
  rw [abs_mul, abs_of_nonneg (div_nonneg hA0 hB.le), abs_sub_comm]
  have : A / B ≤ 1 := (div_le_one hB).2 hAB
  calc A / B * |b - B| ≤ 1 * |b - B| := mul_le_mul_of_nonneg_right this (abs_nonneg _)
    _ ≤ y := by linarith

omit hr h in
theorem forall₂_append_last {β γ : Type} {R : β → γ → Prop} {pre : List β} {θ : β} {l : List γ}
    (hl : List.Forall₂ R (pre ++ [θ]) l) (d : γ) : R θ (l.getLastD d) := by
  induction pre generalizing l d with
  | nil =>
    cases hl with
    | cons hv hnil => cases hnil; exact hv
  | cons a pre ih =>
    cases hl with
    | cons hv hl => rw [List.getLastD_cons]; exact ih hl _

omit hr h in
theorem fpr_bound {e P N L : K} (he : 0 ≤ e) (hP : 0 ≤ P) (hN : 0 < N) (hL : N / 2 ≤ L) :
    (6 * e * (P + N) + 6 * e * (P + N)) / L ≤ 24 * e * ((P + N) / N) := by
  have hLp : 0 < L := lt_of_lt_of_le (by linarith) hL
  rw [div_le_iff₀ hLp, mul_div_assoc', div_mul_eq_mul_div, le_div_iff₀ hN]
  have : 0 ≤ e * (P + N) := mul_nonneg he (by linarith)
  nlinarith

omit hr h in
theorem tpr_bound {e P L : K} (he : 0 ≤ e) (hP : 0 < P) (hL : 98 / 100 * P ≤ L) :
    (2 * e * P + 2 * e * P) / L ≤ 5 * e := by
  have hLp : 0 < L := lt_of_lt_of_le (by linarith) hL
  rw [div_le_iff₀ hLp]
  have : 0 ≤ e * P := mul_nonneg he hP.le
  nlinarith

omit hr h in
theorem unit_le_ratio {u e P N : K} (hu : u ≤ e) (he : 0 ≤ e) (hP : 0 ≤ P) (hN : 0 < N) : u ≤ e * ((P + N) / N) := by
  have : 1 ≤ (P + N) / N := by rw [le_div_iff₀ hN]; linarith
  nlinarith

variable {u : K} (hu : 0 ≤ u) (he : RelError u rnd) (hnu : y.length * u ≤ 1 / 100)
include hu he hnu

omit hr h hnu in
/-- Rounding a number between 0 and 1. -/
theorem rnd_unit {z : K} (h0 : 0 ≤ z) (h1 : z ≤ 1) : |rnd z - z| ≤ u := by
  have := he z
  rw [abs_of_nonneg h0] at this
  nlinarith

/-- **C106, accuracy of the ROC curve.**  With `n` samples of both classes and rounding errors of at most
`u`, in every row of weights where `12 n u` times the total weight is at most the weight of the negative samples, every computed
true positive rate is within `6 n u` of the exact one, and every computed false positive rate within `25 n u` times
the ratio of total to negative weight. -/
theorem C106_roc (hN : W = none → ∀ k : Nat, k ≤ y.length → rnd (k : K) = k) (hpos : true ∈ y) (hneg : false ∈ y)
    {c : Curve K} {thr : List (Flt K)}
    (hc : rocCurveR rnd sumR y (finVec s) (W.map (finMat y.length)) = .ok (c, thr)) :
    List.Forall₂ (fun w r =>
      12 * (y.length * u) * (posTotal (samples y s w) + negTotal (samples y s w)) ≤ negTotal (samples y s w) →
      List.Forall₂ (fun θ v => ∃ x, v = Flt.fin x ∧ |x - fprAt (samples y s w) θ| ≤
        25 * (y.length * u) * ((posTotal (samples y s w) + negTotal (samples y s w)) / negTotal (samples y s w)))
        thr r) (weightRows y.length W) c.x.rows ∧
      List.Forall₂ (fun w r =>
        12 * (y.length * u) * (posTotal (samples y s w) + negTotal (samples y s w)) ≤ negTotal (samples y s w) →
        List.Forall₂ (fun θ v => ∃ x, v = Flt.fin x ∧
        |x - recallAt (samples y s w) θ| ≤ 6 * (y.length * u)) thr r) (weightRows y.length W) c.y.rows := by
  rw [rocR_eq hr h hN] at hc
  split_ifs at hc
  rw [Except.ok.injEq, Prod.mk.injEq] at hc
  obtain ⟨rfl, rfl⟩ := hc
  obtain ⟨u1, u2⟩ := u_le h hu hnu
  have main : ∀ w ∈ weightRows y.length W,
      12 * (y.length * u) * (posTotal (samples y s w) + negTotal (samples y s w)) ≤ negTotal (samples y s w) →
      List.Forall₂ (fun θ v => ∃ x, v = Flt.fin x ∧ |x - fprAt (samples y s w) θ| ≤
        25 * (y.length * u) * ((posTotal (samples y s w) + negTotal (samples y s w)) / negTotal (samples y s w)))
        (thresholdsOf s) (overLastR rnd (cummax (countRow rnd y s w).1)) ∧
      List.Forall₂ (fun θ v => ∃ x, v = Flt.fin x ∧ |x - recallAt (samples y s w) θ| ≤ 6 * (y.length * u))
        (thresholdsOf s) (overLastR rnd (countRow rnd y s w).2) := by
    intro w hw h12
    have hwp := h.weight_pos hw
    have hP := posTotal_pos hwp (h.exists_label hw hpos)
    have hNg := negTotal_pos hwp (h.exists_label hw hneg)
    have hthr := thresholdsOf_spec h.scores_ne
    obtain ⟨hm, l1, l2⟩ := last_facts h hw
    have tl := tp_err h hw hu he hnu hm
    have fl := fp_err h hw hu he hnu hm
    rw [l1] at tl
    rw [l2] at fl
    have hTL : 0 < tpR rnd (reorder (descIdx s) y) (reorder (descIdx s) w) ((reorder (descIdx s) y).length - 1) := by
      have := (abs_le.1 tl).1
      have : 2 * (y.length * u) * posTotal (samples y s w) ≤ 2 * (1 / 100) * posTotal (samples y s w) :=
        mul_le_mul_of_nonneg_right (by linarith) hP.le
      linarith
    have hFL : negTotal (samples y s w) / 2 ≤
        fpR rnd (reorder (descIdx s) y) (reorder (descIdx s) w) ((reorder (descIdx s) y).length - 1) := by
      have := (abs_le.1 fl).1
      linarith
    have hraw1 : (rawRow rnd y s w).1.getLastD 0 =
        fpR rnd (reorder (descIdx s) y) (reorder (descIdx s) w) ((reorder (descIdx s) y).length - 1) :=
      rawRow_last h w
    have hylen : (reorder (descIdx s) y).length = y.length := (CurveInput.wt_facts h hw).2.2.2
    have hss : (reorder (descIdx s) s).length = s.length :=
      (reorder_perm (l := s) (σ := descIdx s) (descIdx_perm s)).length_eq
    have hraw2 : (rawRow rnd y s w).2.getLastD 0 =
        tpR rnd (reorder (descIdx s) y) (reorder (descIdx s) w) ((reorder (descIdx s) y).length - 1) := by
      unfold rawRow
      rw [List.getLastD_eq_getLast?, List.getLast?_map, groupEnds_last, hss, hylen, h.length]
      rfl
    have hok := rawRow_ok hr h hw
    have hfne : (rawRow rnd y s w).1 ≠ [] := by
      intro e
      have := hok.len
      rw [e] at this
      exact hok.ne (List.eq_nil_of_length_eq_zero this.symm)
    have hcr : countRow rnd y s w = (0 :: (rawRow rnd y s w).1, 0 :: (rawRow rnd y s w).2) := by
      unfold countRow pseudoRowR
      simp only [getLastD_cons_ne _ hfne, getLastD_cons_ne _ hok.ne, decide_eq_true_eq]
      rw [hraw1, hraw2, if_neg (by linarith : ¬ _ = (0 : K)), if_neg hTL.ne']
    have hfin := (countRow_fin hr h hw).done
    rw [hcr] at hfin ⊢
    simp only at hfin ⊢
    -- the approximate counts
    have hF : List.Forall₂ (fun θ v => |v - negAbove (samples y s w) θ| ≤
        6 * (y.length * u) * (posTotal (samples y s w) + negTotal (samples y s w))) (thresholdsOf s)
        (0 :: (rawRow rnd y s w).1) := by
      rw [thresholds_eq h]
      refine .cons ?_ (forall₂_map_map _ _ _ fun i hi => fp_err h hw hu he hnu hi)
      rw [negAbove_pinf, sub_zero, abs_zero]
      have : 0 ≤ posTotal (samples y s w) + negTotal (samples y s w) := by linarith
      positivity
    have hT : List.Forall₂ (fun θ v => |v - posAbove (samples y s w) θ| ≤
        2 * (y.length * u) * posTotal (samples y s w)) (thresholdsOf s) (0 :: (rawRow rnd y s w).2) := by
      rw [thresholds_eq h]
      refine .cons ?_ (forall₂_map_map _ _ _ fun i hi => (tp_err h hw hu he hnu hi).trans ?_)
      · rw [posAbove_pinf, sub_zero, abs_zero]
        positivity
      · exact mul_le_mul_of_nonneg_left (above_le_total h hw _).1 (by linarith)
    have hF' := cummax_approx (map_pairwise_mono hthr fun θ θ' hθ => negAbove_mono hwp hθ) hF
    have hlast : |(cummax (0 :: (rawRow rnd y s w).1)).getLastD 0 - negTotal (samples y s w)| ≤
        6 * (y.length * u) * (posTotal (samples y s w) + negTotal (samples y s w)) := by
      obtain ⟨pre, θ, e, -, hθ⟩ := isThresholds_last h.scores_ne hthr
      rw [e] at hF'
      have hv := forall₂_append_last hF' 0
      rw [(above_total (S := samples y s w) (θ := .fin θ)
          fun a ha => Flt.fin_le_fin.2 (hθ _ (h.score_mem hw a ha))).2] at hv
      exact hv
    have hlast2 : |(0 :: (rawRow rnd y s w).2).getLastD 0 - posTotal (samples y s w)| ≤
        2 * (y.length * u) * posTotal (samples y s w) := by
      rw [getLastD_cons_ne _ hok.ne, hraw2]; exact tl
    have hL2 : 98 / 100 * posTotal (samples y s w) ≤ (0 :: (rawRow rnd y s w).2).getLastD 0 := by
      have := (abs_le.1 hlast2).1
      have : 2 * (y.length * u) * posTotal (samples y s w) ≤ 2 * (1 / 100) * posTotal (samples y s w) :=
        mul_le_mul_of_nonneg_right (by linarith) hP.le
      linarith
    have hL1 : negTotal (samples y s w) / 2 ≤ (cummax (0 :: (rawRow rnd y s w).1)).getLastD 0 := by
      have := (abs_le.1 hlast).1
      linarith
    rw [overLastR_eq hfin.flast, overLastR_eq hfin.tlast]
    constructor
    · rw [finVec, List.map_map, List.forall₂_map_right_iff]
      refine (List.forall₂_iff_get.2 ⟨hF'.length_eq, fun i h1 h2 => ?_⟩)
      refine ⟨_, rfl, ?_⟩
      have hi := (List.forall₂_iff_get.1 hF').2 i h1 h2
      have hvm := List.getElem_mem h2
      simp only [List.get_eq_getElem] at hi ⊢
      have hv0 := (hfin.fnum _ hvm).1
      have hvl := le_last hfin.fmono hvm
      obtain ⟨-, a2, -, a4⟩ := above_le_total h hw ((thresholdsOf s)[i]'h1)
      have hfpr : fprAt (samples y s w) ((thresholdsOf s)[i]'h1) =
          negAbove (samples y s w) ((thresholdsOf s)[i]'h1) / negTotal (samples y s w) := by
        unfold fprAt fpCount fpTotal
        rw [if_neg hNg.ne', if_neg hNg.ne']
      rw [hfpr]
      have r1 := ratio_err hNg a4 a2 hfin.flast hi hlast
      have r2 := rnd_unit hu he (div_nonneg hv0 hfin.flast.le) ((div_le_one hfin.flast).2 hvl)
      generalize (cummax (0 :: (rawRow rnd y s w).1))[i] / (cummax (0 :: (rawRow rnd y s w).1)).getLastD 0 = q at *
      generalize negAbove (samples y s w) ((thresholdsOf s)[i]'h1) / negTotal (samples y s w) = q' at *
      generalize (cummax (0 :: (rawRow rnd y s w).1)).getLastD 0 = L at *
      have r3 := fpr_bound u2 hP.le hNg hL1
      have r4 := unit_le_ratio u1 u2 hP.le hNg
      have : rnd q - q' = (rnd q - q) + (q - q') := by ring
      rw [this]
      refine (abs_add_le _ _).trans ?_
      linarith
    · rw [finVec, List.map_map, List.forall₂_map_right_iff]
      refine (List.forall₂_iff_get.2 ⟨hT.length_eq, fun i h1 h2 => ?_⟩)
      refine ⟨_, rfl, ?_⟩
      have hi := (List.forall₂_iff_get.1 hT).2 i h1 h2
      have hvm := List.getElem_mem h2
      simp only [List.get_eq_getElem] at hi ⊢
      have hv0 := (hfin.tnum _ hvm).1
      have hvl := le_last hfin.tmono hvm
      obtain ⟨a1, -, a3, -⟩ := above_le_total h hw ((thresholdsOf s)[i]'h1)
      have hrec : recallAt (samples y s w) ((thresholdsOf s)[i]'h1) =
          posAbove (samples y s w) ((thresholdsOf s)[i]'h1) / posTotal (samples y s w) := by
        unfold recallAt tpCount tpTotal
        rw [if_neg hP.ne', if_neg hP.ne']
      rw [hrec]
      have r1 := ratio_err hP a3 a1 hfin.tlast hi hlast2
      have r2 := rnd_unit hu he (div_nonneg hv0 hfin.tlast.le) ((div_le_one hfin.tlast).2 hvl)
      generalize (0 :: (rawRow rnd y s w).2)[i] / (0 :: (rawRow rnd y s w).2).getLastD 0 = q at *
      generalize posAbove (samples y s w) ((thresholdsOf s)[i]'h1) / posTotal (samples y s w) = q' at *
      generalize (0 :: (rawRow rnd y s w).2).getLastD 0 = L at *
      have r3 := tpr_bound u2 hP hL2
      have : rnd q - q' = (rnd q - q) + (q - q') := by ring
      rw [this]
      refine (abs_add_le _ _).trans ?_
      linarith
  constructor
  · simp only [matOf]
    rw [List.forall₂_map_right_iff, List.forall₂_same]
    exact fun w hw h12 => (main w hw h12).1
  · simp only [matOf]
    rw [List.forall₂_map_right_iff, List.forall₂_same]
    exact fun w hw h12 => (main w hw h12).2

end

/-! ## Without weights -/

theorem foldR_id (l : List K) (a : K) : foldR id a l = a + l.sum := by
  induction l generalizing a with
  | nil => simp [foldR_nil]
  | cons b l ih => rw [foldR_cons, ih]; simp [add_assoc]

section
variable (hr : FloatRounding rnd) {y : List Bool} {s : List K} (h : CurveInput y s none)
  (hN : ∀ k : Nat, k ≤ y.length → rnd (k : K) = k)
include h hN

/-- Without weights the counts are exact. -/
theorem exact_counts {i : Nat} (hi : i ∈ groupEnds (reorder (descIdx s) s)) :
    tpR rnd (reorder (descIdx s) y) (reorder (descIdx s) (List.replicate y.length 1)) i =
        posAbove (samples y s (List.replicate y.length 1)) (.fin ((reorder (descIdx s) s).getD i 0)) ∧
      fpR rnd (reorder (descIdx s) y) (reorder (descIdx s) (List.replicate y.length 1)) i =
        negAbove (samples y s (List.replicate y.length 1)) (.fin ((reorder (descIdx s) s).getD i 0)) ∧
      allR rnd (reorder (descIdx s) (List.replicate y.length 1)) i =
        posAbove (samples y s (List.replicate y.length 1)) (.fin ((reorder (descIdx s) s).getD i 0)) +
        negAbove (samples y s (List.replicate y.length 1)) (.fin ((reorder (descIdx s) s).getD i 0)) := by
  have hw : List.replicate y.length (1 : K) ∈ weightRows y.length none := by simp [weightRows]
  obtain ⟨e1, e2⟩ := exact_sums h hw hi
  have hpm := reorder_perm (l := y) (σ := descIdx s) (by unfold IsPerm; rw [← h.length]; exact descIdx_perm s)
  have hylen := hpm.length_eq
  have hrep : reorder (descIdx s) (List.replicate y.length (1 : K)) = List.replicate y.length 1 := by
    have hp := reorder_perm (l := List.replicate y.length (1 : K)) (σ := descIdx s) (by
      unfold IsPerm; rw [List.length_replicate, ← h.length]; exact descIdx_perm s)
    exact List.perm_replicate.1 hp
  have hss : (reorder (descIdx s) s).length = s.length :=
    (reorder_perm (l := s) (σ := descIdx s) (descIdx_perm s)).length_eq
  have hlt := groupEnds_lt (CurveInput.ss_ne h) i hi
  have hlt' : i < (reorder (descIdx s) y).length := by rw [hylen, ← h.length, ← hss]; exact hlt
  have hN' : ∀ k : Nat, k ≤ (reorder (descIdx s) y).length → rnd (k : K) = k := by rw [hylen]; exact hN
  rw [hrep] at e1 e2 ⊢
  rw [← hylen] at e1 e2 ⊢
  have t1 : tpR rnd (reorder (descIdx s) y) (List.replicate (reorder (descIdx s) y).length 1) i =
      posAbove (samples y s (List.replicate (reorder (descIdx s) y).length 1))
        (.fin ((reorder (descIdx s) s).getD i 0)) := by
    rw [← e1, tpR_ones hN', ← tpR_ones (rnd := id) (K := K) (fun _ _ => rfl)]
    unfold tpR
    rw [foldR_id, zero_add]
  have t2 : allR rnd (List.replicate (reorder (descIdx s) y).length 1) i =
      posAbove (samples y s (List.replicate (reorder (descIdx s) y).length 1))
        (.fin ((reorder (descIdx s) s).getD i 0)) +
      negAbove (samples y s (List.replicate (reorder (descIdx s) y).length 1))
        (.fin ((reorder (descIdx s) s).getD i 0)) := by
    rw [← e2, allR_ones hN' hlt', ← allR_ones (rnd := id) (K := K) (fun _ _ => rfl) hlt']
    unfold allR
    rw [foldR_id, zero_add]
  refine ⟨t1, ?_, t2⟩
  rw [fpR_ones hN' hlt', t1]
  have : (1 : K) + (i : K) = allR rnd (List.replicate (reorder (descIdx s) y).length 1) i := by
    rw [allR_ones hN' hlt']; push_cast; ring
  rw [this, t2]
  ring

include hr in
theorem exact_countRow (hpos : true ∈ y) (hneg : false ∈ y) :
    countRow rnd y s (List.replicate y.length 1) =
      ((thresholdsOf s).map (negAbove (samples y s (List.replicate y.length 1))),
        (thresholdsOf s).map (posAbove (samples y s (List.replicate y.length 1)))) := by
  have hw : List.replicate y.length (1 : K) ∈ weightRows y.length none := by simp [weightRows]
  have hwp := h.weight_pos hw
  have hP := posTotal_pos hwp (h.exists_label hw hpos)
  have hNg := negTotal_pos hwp (h.exists_label hw hneg)
  have r1 : (0 : K) :: (rawRow rnd y s (List.replicate y.length 1)).1 =
      (thresholdsOf s).map (negAbove (samples y s (List.replicate y.length 1))) := by
    rw [thresholds_eq h, List.map_cons, negAbove_pinf, List.map_map]
    congr 1
    exact List.map_congr_left fun i hi => (exact_counts h hN hi).2.1
  have r2 : (0 : K) :: (rawRow rnd y s (List.replicate y.length 1)).2 =
      (thresholdsOf s).map (posAbove (samples y s (List.replicate y.length 1))) := by
    rw [thresholds_eq h, List.map_cons, posAbove_pinf, List.map_map]
    congr 1
    exact List.map_congr_left fun i hi => (exact_counts h hN hi).1
  have hl := getLastD_map_last h.scores_ne (thresholdsOf_spec h.scores_ne) (h.score_mem hw)
  obtain ⟨l1, l2, -, -⟩ := hl
  unfold countRow pseudoRowR
  rw [r1, r2]
  simp only [decide_eq_true_eq]
  rw [l1, l2, if_neg hNg.ne', if_neg hP.ne']

include hr in
/-- **C106, without weights.**  Without weights and with both classes present, every point of the ROC curve and
of the recall-precision curve is the correctly rounded exact value. -/
theorem C106_unweighted (hpos : true ∈ y) (hneg : false ∈ y) :
    ∃ thr, IsThresholds s thr ∧ rocCurveR rnd sumR y (finVec s) none =
        .ok (⟨finMat thr.length [thr.map fun θ => rnd (fprAt (samples y s (List.replicate y.length 1)) θ)],
          finMat thr.length [thr.map fun θ => rnd (recallAt (samples y s (List.replicate y.length 1)) θ)],
          .linear⟩, thr) ∧
      recallPrecisionCurveR rnd sumR y (finVec s) none =
        .ok (⟨finMat thr.length [thr.map fun θ => rnd (recallAt (samples y s (List.replicate y.length 1)) θ)],
          finMat thr.length
            [atThresholds (fun θ => rnd (precisionAt (samples y s (List.replicate y.length 1)) θ)) thr],
          .previous⟩, thr) := by
  have hw : List.replicate y.length (1 : K) ∈ weightRows y.length none := by simp [weightRows]
  have hwp := h.weight_pos hw
  have hP := posTotal_pos hwp (h.exists_label hw hpos)
  have hNg := negTotal_pos hwp (h.exists_label hw hneg)
  have ht := thresholdsOf_spec h.scores_ne
  obtain ⟨l1, l2, -, -⟩ := getLastD_map_last h.scores_ne ht (h.score_mem hw)
  have hcr := exact_countRow hr h hN hpos hneg
  have hcm : cummax ((thresholdsOf s).map (negAbove (samples y s (List.replicate y.length 1)))) =
      (thresholdsOf s).map (negAbove (samples y s (List.replicate y.length 1))) :=
    cummax_id (map_pairwise_mono ht fun θ θ' hθ => negAbove_mono hwp hθ)
  have hfp : overLastR rnd ((thresholdsOf s).map (negAbove (samples y s (List.replicate y.length 1)))) =
      finVec ((thresholdsOf s).map fun θ => rnd (fprAt (samples y s (List.replicate y.length 1)) θ)) := by
    rw [overLastR_eq (by rw [l1]; exact hNg), l1, List.map_map]
    congr 1
    refine List.map_congr_left fun θ _ => ?_
    unfold fprAt fpCount fpTotal
    rw [if_neg hNg.ne', if_neg hNg.ne']
    rfl
  have htp : overLastR rnd ((thresholdsOf s).map (posAbove (samples y s (List.replicate y.length 1)))) =
      finVec ((thresholdsOf s).map fun θ => rnd (recallAt (samples y s (List.replicate y.length 1)) θ)) := by
    rw [overLastR_eq (by rw [l2]; exact hP), l2, List.map_map]
    congr 1
    refine List.map_congr_left fun θ _ => ?_
    unfold recallAt tpCount tpTotal
    rw [if_neg hP.ne', if_neg hP.ne']
    rfl
  refine ⟨thresholdsOf s, ht, ?_, ?_⟩
  · have e := rocR_eq (sumR := sumR) hr h fun _ => hN
    rw [if_pos (by rfl)] at e
    refine e.trans ?_
    simp only [weightRows, Option.getD_none, List.map_cons, List.map_nil, hcr, hcm, hfp, htp]
    rfl
  · obtain ⟨-, ⟨v, hv⟩, -⟩ := C105_unweighted (sumR := sumR) hr h rfl hN
    have e := rpR_eq (sumR := sumR) hr h fun _ => hN
    split_ifs at e with hif
    · refine e.trans ?_
      simp only [weightRows, Option.getD_none, List.map_cons, List.map_nil, hcr, hcm, htp]
      have hprec : okD [] (copySecond (precisionRowR rnd
          ((thresholdsOf s).map (negAbove (samples y s (List.replicate y.length 1))))
          ((thresholdsOf s).map (posAbove (samples y s (List.replicate y.length 1)))))) =
          finVec (atThresholds (fun θ => rnd (precisionAt (samples y s (List.replicate y.length 1)) θ))
            (thresholdsOf s)) := by
        have key : ∀ i ∈ groupEnds (reorder (descIdx s) s),
            rF rnd ((Flt.fin (posAbove (samples y s (List.replicate y.length 1))
              (.fin ((reorder (descIdx s) s).getD i 0)))).div
              (.fin (rnd (posAbove (samples y s (List.replicate y.length 1)) (.fin ((reorder (descIdx s) s).getD i 0)) +
                negAbove (samples y s (List.replicate y.length 1)) (.fin ((reorder (descIdx s) s).getD i 0)))))) =
            .fin (rnd (precisionAt (samples y s (List.replicate y.length 1))
              (.fin ((reorder (descIdx s) s).getD i 0)))) := by
          intro i hi
          obtain ⟨f1, f2, hne, -⟩ := CurveInput.wt_facts h hw
          rw [← (exact_counts h hN hi).2.2, allR_rounded hr]
          have hap := allR_pos (rnd := rnd) hr f2 hne i
          rw [Flt.div_fin hap.ne', (exact_counts h hN hi).2.2]
          unfold precisionAt tpCount fpCount
          rw [if_neg hP.ne', if_neg hNg.ne']
          rfl
        rw [thresholds_eq h] at *
        unfold precisionRowR
        rw [zipWith_map_self]
        have hgne : groupEnds (reorder (descIdx s) s) ≠ [] := List.ne_nil_of_mem groupEnds_last_mem
        obtain ⟨i, l, e⟩ := List.exists_cons_of_ne_nil hgne
        rw [e] at key ⊢
        simp only [List.map_cons, copySecond, okD, atThresholds, finVec, List.map_map]
        rw [key i List.mem_cons_self]
        congr 2
        exact List.map_congr_left fun j hj => key j (List.mem_cons_of_mem _ hj)
      rw [hprec]
      rfl
    · rw [show (none : Option (List (List K))).map (finMat y.length) = none from rfl, hv] at e
      exact absurd e (by simp)

end

end
end Mlp.Props
