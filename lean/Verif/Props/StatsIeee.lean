import Verif.Spec.IeeeLib
import Verif.Props.TableIeee
import Verif.Props.AreaIeee

/-! # No operation of `mlpaper.py` overflows on moderate data -/

namespace Mlp.Props
open Mlp.Paper Mlp.PaperR Mlp.PerfR Mlp.BootR Mlp.Boot Mlp.Spec Mlp.Lemmas Mlp.Round

theorem ieeeRound_pow (e : Nat) : ieeeRound ((2 : ℝ) ^ e) = 2 ^ e := by
  rw [ieeeRound_big, binary64_pow]
  rw [abs_of_pos (by positivity)]
  have h1 : ((2 : ℝ) ^ 1022)⁻¹ ≤ 1 := inv_le_one_of_one_le₀ (one_le_pow₀ (by norm_num))
  exact h1.trans (one_le_pow₀ (by norm_num))

theorem ieee_bound {x : ℝ} {e : Nat} (h : |x| ≤ 2 ^ e) : |ieeeRound x| ≤ 2 ^ e := by
  rw [_root_.abs_le] at h ⊢
  constructor
  · have := ieeeRound_mono h.1
    rwa [ieeeRound_neg, ieeeRound_pow] at this
  · have := ieeeRound_mono h.2
    rwa [ieeeRound_pow] at this

theorem le_pow {x : ℝ} {a b : Nat} (h : x ≤ 2 ^ a) (hab : a ≤ b) : x ≤ 2 ^ b := h.trans (pow_le_of hab)

theorem ieeeRound_follows : FollowsIeee (ieeeRound : ℝ → ℝ) := fun _ _ h => (ieee64_fin_iff.1 h).1

section
variable {rnd : ℝ → ℝ} (hi : FollowsIeee rnd)
include hi

theorem rnd_eq {x : ℝ} {e : Nat} (h : |x| ≤ 2 ^ e) (he : e ≤ 1023) : rnd x = ieeeRound x :=
  hi x _ (ieee64_fin_iff.2 ⟨rfl, lt_of_le_of_lt (ieee_bound (le_pow h he)) two_pow_lt⟩)

theorem rF_eq {v : Flt ℝ} {e : Nat} (h : ∀ x, v = .fin x → |x| ≤ 2 ^ e) (he : e ≤ 1023) : rF rnd v = rF ieeeRound v := by
  cases v with
  | fin x => simp only [rF]; rw [rnd_eq hi (h x rfl) he]
  | _ => rfl

theorem tree_eq {e : Nat} (he : e + 53 ≤ 1023) {t : SumTree ℝ} (h : ∀ v ∈ t.leaves, |v| ≤ 2 ^ e) (hl : t.leaves.length ≤ 2 ^ 53) :
    t.eval rnd = t.eval ieeeRound ∧ |t.eval ieeeRound| ≤ (t.leaves.length : ℝ) * 2 ^ e := by
  induction t with
  | leaf v => exact ⟨rfl, by simpa [SumTree.leaves, SumTree.eval] using h v (by simp [SumTree.leaves])⟩
  | node a b iha ihb =>
    simp only [SumTree.leaves, List.length_append] at hl h ⊢
    obtain ⟨a1, a3⟩ := iha (fun v hv => h v (List.mem_append_left _ hv)) (by omega)
    obtain ⟨b1, b3⟩ := ihb (fun v hv => h v (List.mem_append_right _ hv)) (by omega)
    have hs : |a.eval ieeeRound + b.eval ieeeRound| ≤ ((a.leaves.length + b.leaves.length : Nat) : ℝ) * 2 ^ e := by
      push_cast
      linarith [abs_add_le (a.eval ieeeRound) (b.eval ieeeRound)]
    have e1 : ieeeRound (((a.leaves.length + b.leaves.length : Nat) : ℝ) * 2 ^ e) = ((a.leaves.length + b.leaves.length : Nat) : ℝ) * 2 ^ e := by
      have hg := nat_onGrid (K := ℝ) (e := 53) hl
      have := (hg.mul (OnGrid.one (k := 0) (e := 0))).1
      rw [ieeeRound_inRange, binary64_mul_pow _ _ hl]
      refine ⟨?_, .inr ⟨((a.leaves.length + b.leaves.length : Nat) : ℤ) * 2 ^ e * 2 ^ 1074, by push_cast; rfl⟩⟩
      rw [abs_of_nonneg (by positivity)]
      exact (nat_mul_pow_le hl).trans (pow_le_of he)
    simp only [SumTree.eval]
    refine ⟨by rw [a1, b1, rnd_eq hi (hs.trans (nat_mul_pow_le hl)) he], ?_⟩
    rw [_root_.abs_le] at hs ⊢
    constructor
    · have := ieeeRound_mono hs.1
      rwa [ieeeRound_neg, e1] at this
    · have := ieeeRound_mono hs.2
      rwa [e1] at this

end

section
variable {L : Lib ℝ} {order : List ℝ → SumTree ℝ} (H : IeeeLib L order)
include H

theorem wide_sign : SignLib (wideLib L order) where
  sum := sumBy_trees H.is_order _
  sqrt_zero := H.sqrt_zero
  sqrt_nonneg := H.sqrt_nonneg
  sqrt_pos x h hx := by
    refine lt_of_le_of_ne (H.sqrt_nonneg x hx.le) fun e => ?_
    have := H.sqrt_ge x h hx.le
    change 0 = L.sqrt x at e
    rw [← e] at this
    linarith
  log_pos := H.log_ge
  exp_nonneg := H.exp_nonneg
  roots a b c ha hb hc := by
    by_cases h : RootsRange a b c
    · obtain ⟨r₁, r₂, e, s1, s2, -⟩ := H.roots a b c h
      exact ⟨r₁, r₂, by simp [wideLib, h, e], s1, s2⟩
    · exact ⟨0, 0, by simp [wideLib, h], .inl le_rfl, .inl le_rfl⟩
  tInterval := H.tInterval
  tSf := H.tSf
  tSf_inf := H.tSf_inf
  tSf_nan := H.tSf_nan

theorem sum_eq {e : Nat} (he : e + 53 ≤ 1023) {l : List ℝ} (h : ∀ v ∈ l, |v| ≤ 2 ^ e) (hl : l.length ≤ 2 ^ 53) :
    L.sum l = (wideLib L order).sum l ∧ |(wideLib L order).sum l| ≤ (l.length : ℝ) * 2 ^ e := by
  rw [H.sum]
  change sumBy order L.rnd l = sumBy order ieeeRound l ∧ |sumBy order ieeeRound l| ≤ _
  unfold sumBy
  cases hle : l.isEmpty with
  | true => simp
  | false =>
    have hne : l ≠ [] := by simpa using hle
    have hp := H.is_order l hne
    obtain ⟨h1, h2⟩ := tree_eq H.rnd he (t := order l) (fun v hv => h v (hp.mem_iff.1 hv)) (by rw [hp.length_eq]; exact hl)
    simp only [Bool.false_eq_true, if_false]
    rw [hp.length_eq] at h2
    exact ⟨h1, h2⟩

/-- A sum of bounded numbers divided by at least half their number. -/
theorem quot_eq {e : Nat} (he : e + 54 ≤ 1023) {l : List ℝ} (h : ∀ v ∈ l, |v| ≤ 2 ^ e) (hl : l.length ≤ 2 ^ 53) {d : ℝ}
    (h0 : 0 < d) (hd : (l.length : ℝ) ≤ 2 * d) :
    L.rnd (L.sum l / d) = ieeeRound ((wideLib L order).sum l / d) ∧ |ieeeRound ((wideLib L order).sum l / d)| ≤ 2 ^ (e + 1) := by
  obtain ⟨h1, h2⟩ := sum_eq H (by omega) h hl
  have hb : |(wideLib L order).sum l / d| ≤ 2 ^ (e + 1) := by
    rw [abs_div, abs_of_pos h0, div_le_iff₀ h0, pow_succ]
    have := mul_le_mul_of_nonneg_right hd (show (0 : ℝ) ≤ 2 ^ e by positivity)
    linarith
  exact ⟨by rw [h1, rnd_eq H.rnd hb (by omega)], ieee_bound hb⟩

theorem mean_eq {e : Nat} (he : e + 53 ≤ 1023) {xs : List ℝ} (hne : xs ≠ []) (h : ∀ v ∈ xs, |v| ≤ 2 ^ e) (hl : xs.length ≤ 2 ^ 53) :
    meanR L xs = meanR (wideLib L order) xs ∧ |meanR (wideLib L order) xs| ≤ 2 ^ e := by
  obtain ⟨h1, h2⟩ := sum_eq H he h hl
  have h0 : (0 : ℝ) < xs.length := by exact_mod_cast List.length_pos_iff.2 hne
  have hb : |(wideLib L order).sum xs / xs.length| ≤ 2 ^ e := by
    rw [abs_div, abs_of_pos h0, div_le_iff₀ h0, mul_comm]
    exact h2
  exact ⟨by unfold meanR; rw [h1, rnd_eq H.rnd hb (by omega)]; rfl, ieee_bound hb⟩

theorem var_eq {e : Nat} (he : 2 * e + 56 ≤ 1023) {xs : List ℝ} (h2 : 2 ≤ xs.length) (h : ∀ v ∈ xs, |v| ≤ 2 ^ e)
    (hl : xs.length ≤ 2 ^ 53) {d : ℝ} (hd : d ≤ 1) :
    varR L d xs = varR (wideLib L order) d xs ∧ 0 ≤ varR (wideLib L order) d xs ∧ varR (wideLib L order) d xs ≤ 2 ^ (2 * e + 3) := by
  have hne : xs ≠ [] := by rintro rfl; simp at h2
  obtain ⟨m1, m2⟩ := mean_eq H (e := e) (by omega) hne h hl
  have h2' : (2 : ℝ) ≤ xs.length := by exact_mod_cast h2
  have dev : ∀ x ∈ xs, |x - meanR (wideLib L order) xs| ≤ 2 ^ (e + 1) := by
    intro x hx
    have := abs_sub x (meanR (wideLib L order) xs)
    have := h x hx
    rw [pow_succ]
    linarith
  have sq : ∀ x ∈ xs, |ieeeRound (x - meanR (wideLib L order) xs) * ieeeRound (x - meanR (wideLib L order) xs)| ≤ 2 ^ (2 * e + 2) := by
    intro x hx
    rw [abs_mul, show 2 * e + 2 = (e + 1) + (e + 1) by ring, pow_add]
    exact mul_le_mul (ieee_bound (dev x hx)) (ieee_bound (dev x hx)) (abs_nonneg _) (by positivity)
  have hmap : (xs.map fun (x : ℝ) => L.rnd (L.rnd (x - meanR L xs) * L.rnd (x - meanR L xs))) =
      xs.map fun (x : ℝ) => ieeeRound (ieeeRound (x - meanR (wideLib L order) xs) * ieeeRound (x - meanR (wideLib L order) xs)) := by
    refine List.map_congr_left fun x hx => ?_
    rw [m1, rnd_eq H.rnd (dev x hx) (by omega), rnd_eq H.rnd (sq x hx) (by omega)]
  obtain ⟨q1, q2⟩ := quot_eq H (e := 2 * e + 2) (by omega)
    (l := xs.map fun (x : ℝ) => ieeeRound (ieeeRound (x - meanR (wideLib L order) xs) * ieeeRound (x - meanR (wideLib L order) xs)))
    (by
      intro v hv
      obtain ⟨x, hx, rfl⟩ := List.mem_map.1 hv
      exact ieee_bound (sq x hx))
    (by simpa using hl) (d := xs.length - d) (by linarith) (by rw [List.length_map]; linarith)
  refine ⟨?_, varR_nonneg_of ieeeRound_monoRounding (wide_sign H).sum (by linarith), (le_abs_self _).trans q2⟩
  unfold varR
  rw [hmap, q1]
  rfl

theorem sqrt_bound {x : ℝ} {k : Nat} (hx : ieeeRound x = x) (h0 : 0 ≤ x) (h : x ≤ 2 ^ (2 * k)) : L.sqrt x ≤ 2 ^ (k + 1) := by
  refine le_of_sq_le_sq ?_ (by positivity)
  rw [sq]
  refine (H.sqrt_le x hx h0).trans ?_
  rw [← pow_mul, show (k + 1) * 2 = 2 * k + 2 by ring, pow_add]
  linarith

theorem sqrt_len {n : Nat} (h : 2 ≤ n) (hn : n ≤ 2 ^ 53) : 1 / 2 ≤ L.sqrt n := by
  have h2 : (2 : ℝ) ≤ n := by exact_mod_cast h
  have h1 := H.sqrt_ge n (by simpa using ieeeRound_int (v := n) (by rw [abs_of_nonneg (by omega)]; exact_mod_cast hn)) (by linarith)
  nlinarith [H.sqrt_nonneg n (by linarith)]

end

/-- Finite values are at most `2 ^ e`. -/
def FltBound (e : Nat) (v : Flt ℝ) : Prop := ∀ x, v = .fin x → |x| ≤ 2 ^ e

theorem FltBound.mono {v : Flt ℝ} {e e' : Nat} (h : FltBound e v) (he : e ≤ e') : FltBound e' v := fun x hx => le_pow (h x hx) he

theorem FltBound.fin {x : ℝ} {e : Nat} (h : |x| ≤ 2 ^ e) : FltBound e (.fin x) := by
  intro y hy
  rw [Flt.fin.injEq] at hy
  exact hy ▸ h

theorem FltBound.rF {v : Flt ℝ} {e : Nat} (h : FltBound e v) : FltBound e (rF ieeeRound v) := by
  cases v with
  | fin x => exact FltBound.fin (ieee_bound (h x rfl))
  | _ => intro x hx; simp [PerfR.rF] at hx

theorem FltBound.neg {v : Flt ℝ} {e : Nat} (h : FltBound e v) : FltBound e v.neg := by
  cases v with
  | fin x => exact FltBound.fin (by rw [abs_neg]; exact h x rfl)
  | _ => intro x hx; simp [Flt.neg] at hx

theorem FltBound.add {a b : Flt ℝ} {e : Nat} (ha : FltBound e a) (hb : FltBound e b) : FltBound (e + 1) (a.add b) := by
  intro x hx
  cases a <;> cases b <;> simp [Flt.add] at hx
  rw [← hx, pow_succ]
  linarith [abs_add_le _ _ |>.trans (add_le_add (ha _ rfl) (hb _ rfl))]

theorem FltBound.sub {a b : Flt ℝ} {e : Nat} (ha : FltBound e a) (hb : FltBound e b) : FltBound (e + 1) (a.sub b) :=
  ha.add hb.neg

theorem signInf_not {x y : ℝ} : Flt.signInf x ≠ .fin y := by
  unfold Flt.signInf
  split_ifs <;> simp

theorem FltBound.mul {a b : Flt ℝ} {e e' : Nat} (ha : FltBound e a) (hb : FltBound e' b) : FltBound (e + e') (a.mul b) := by
  intro x hx
  cases a <;> cases b <;> simp [Flt.mul, signInf_not] at hx
  rw [← hx, abs_mul, pow_add]
  exact mul_le_mul (ha _ rfl) (hb _ rfl) (abs_nonneg _) (by positivity)

theorem FltBound.div_nat {a : Flt ℝ} {e n : Nat} (ha : FltBound e a) (hn : 1 ≤ n) : FltBound e (a.div (.fin (n : ℝ))) := by
  have h1 : (1 : ℝ) ≤ n := by exact_mod_cast hn
  intro x hx
  cases a with
  | fin y =>
    simp only [Flt.div] at hx
    rw [if_neg (by linarith), Flt.fin.injEq] at hx
    rw [← hx, abs_div, abs_of_pos (by linarith : (0 : ℝ) < n), div_le_iff₀ (by linarith)]
    exact (ha _ rfl).trans (le_mul_of_one_le_right (by positivity) h1)
  | _ => simp only [Flt.div] at hx; try split_ifs at hx
         all_goals simp at hx

theorem FltBound.fmax {a b : Flt ℝ} {e : Nat} (ha : FltBound e a) (hb : FltBound e b) : FltBound e (Flt.fmax a b) := by
  unfold Flt.fmax
  split_ifs
  · exact hb
  · exact ha
  · rcases max_choice a b with h | h <;> rw [h] <;> assumption

/-- Data that are not uninformative are at least two finite numbers. -/
theorem informative {x : List (Flt ℝ)} (h : uninformative x = false) : ∃ xs : List ℝ, x = finVec xs ∧ 2 ≤ xs.length := by
  unfold uninformative at h
  simp only [Bool.or_eq_false_iff, decide_eq_false_iff_not, Bool.not_eq_false', List.all_eq_true] at h
  have key : ∀ {x : List (Flt ℝ)}, (∀ v ∈ x, v.isFinite = true) → ∃ xs : List ℝ, x = finVec xs := by
    intro x hx
    induction x with
    | nil => exact ⟨[], rfl⟩
    | cons a l ih =>
      obtain ⟨xs, rfl⟩ := ih fun v hv => hx v (List.mem_cons_of_mem _ hv)
      have ha := hx a List.mem_cons_self
      cases a with
      | fin y => exact ⟨y :: xs, rfl⟩
      | _ => simp [Flt.isFinite] at ha
  obtain ⟨xs, rfl⟩ := key h.2
  refine ⟨xs, rfl, ?_⟩
  have := h.1
  simp only [finVec, List.length_map] at this
  omega

section
variable {L : Lib ℝ} {order : List ℝ → SumTree ℝ} (H : IeeeLib L order)
include H

theorem rF_eq' {v : Flt ℝ} {e : Nat} (h : FltBound e v) (he : e ≤ 1023) : rF L.rnd v = rF ieeeRound v := rF_eq H.rnd h he

/-- Data for which nothing overflows. -/
theorem finVec_bound {xs : List ℝ} {e : Nat} (h : ∀ v ∈ finVec xs, FltBound e v) : ∀ v ∈ xs, |v| ≤ 2 ^ e :=
  fun v hv => h (.fin v) (List.mem_map_of_mem hv) v rfl

theorem std_bound {xs : List ℝ} (h2 : 2 ≤ xs.length) (h : ∀ v ∈ xs, |v| ≤ 2 ^ 201) (hl : xs.length ≤ 2 ^ 53) {d : ℝ} (hd : d ≤ 1) :
    varR L d xs = varR (wideLib L order) d xs ∧ 0 ≤ varR (wideLib L order) d xs ∧ varR (wideLib L order) d xs ≤ 2 ^ 405 ∧
      0 ≤ L.sqrt (varR (wideLib L order) d xs) ∧ L.sqrt (varR (wideLib L order) d xs) ≤ 2 ^ 204 := by
  obtain ⟨v1, v2, v3⟩ := var_eq H (e := 201) (by norm_num) h2 h hl hd
  exact ⟨v1, v2, v3, H.sqrt_nonneg _ v2, sqrt_bound H (k := 203) (ieeeRound_idem _) v2 (le_pow v3 (by norm_num))⟩

/-- `t_EB` does not overflow. -/
theorem tEBR_eq {x : List (Flt ℝ)} (h : ∀ v ∈ x, FltBound 201 v) (hl : x.length ≤ 2 ^ 53) {c : ℝ} (hc : ieeeRound c = c)
    (h0 : 0 < c) (h1 : c < 1) : tEBR L x (.fin c) = tEBR (wideLib L order) x (.fin c) := by
  unfold tEBR
  refine assert_congr rfl fun _ => assert_congr rfl fun _ => ?_
  split_ifs with hu
  · rfl
  obtain ⟨xs, rfl, h2⟩ := informative (by simpa using hu)
  have hb := finVec_bound H h
  rw [show (finVec xs).length = xs.length by simp [finVec]] at hl
  obtain ⟨v1, v2, v3, s0, s1⟩ := std_bound H h2 hb hl le_rfl
  have n1 := sqrt_len H h2 hl
  obtain ⟨t1, t2⟩ := H.tInterval_le (xs.length - 1) c hc h0 h1
  rw [finVals_finVec]
  simp only [numOf, v1]
  change (pyAssert (decide ¬(L.tInterval (xs.length - 1) c).2 < (L.tInterval (xs.length - 1) c).1) >>= _) =
    (pyAssert (decide ¬(L.tInterval (xs.length - 1) c).2 < (L.tInterval (xs.length - 1) c).1) >>= _)
  refine assert_congr rfl fun _ => ?_
  generalize varR (wideLib L order) 1 xs = V at *
  have a1 : |L.sqrt V / L.sqrt xs.length| ≤ 2 ^ 205 := by
    rw [abs_div, abs_of_nonneg s0, abs_of_nonneg (by linarith), div_le_iff₀ (by linarith)]
    refine s1.trans ?_
    rw [show (2 : ℝ) ^ 204 = 2 ^ 205 * (1 / 2) by rw [pow_succ]; ring]
    exact mul_le_mul_of_nonneg_left n1 (by positivity)
  have a2 : |1 / 2 * ieeeRound (L.sqrt V / L.sqrt xs.length)| ≤ 2 ^ 205 := by
    rw [abs_mul, abs_of_pos (by norm_num : (0 : ℝ) < 1 / 2)]
    linarith [ieee_bound a1, abs_nonneg (ieeeRound (L.sqrt V / L.sqrt xs.length))]
  have a3 : |(L.tInterval (xs.length - 1) c).2 - (L.tInterval (xs.length - 1) c).1| ≤ 2 ^ 101 := by
    have := abs_sub (L.tInterval (xs.length - 1) c).2 (L.tInterval (xs.length - 1) c).1
    rw [pow_succ]
    linarith
  have a4 : |ieeeRound (1 / 2 * ieeeRound (L.sqrt V / L.sqrt xs.length)) *
      ieeeRound ((L.tInterval (xs.length - 1) c).2 - (L.tInterval (xs.length - 1) c).1)| ≤ 2 ^ 306 := by
    rw [abs_mul, show 306 = 205 + 101 by norm_num, pow_add]
    exact mul_le_mul (ieee_bound a2) (ieee_bound a3) (abs_nonneg _) (by positivity)
  rw [rnd_eq H.rnd a1 (by norm_num), rnd_eq H.rnd a2 (by norm_num), rnd_eq H.rnd a3 (by norm_num), rnd_eq H.rnd a4 (by norm_num)]
  rfl

/-- `t_test` does not overflow. -/
theorem tTestR_eq {x : List (Flt ℝ)} (h : ∀ v ∈ x, FltBound 201 v) (hl : x.length ≤ 2 ^ 53) :
    tTestR L x = tTestR (wideLib L order) x := by
  unfold tTestR
  refine assert_congr rfl fun _ => ?_
  split_ifs with hu
  · rfl
  obtain ⟨xs, rfl, h2⟩ := informative (by simpa using hu)
  have hb := finVec_bound H h
  rw [show (finVec xs).length = xs.length by simp [finVec]] at hl
  have hne : xs ≠ [] := by rintro rfl; simp at h2
  obtain ⟨v1, v2, v3, -, -⟩ := std_bound H h2 hb hl le_rfl
  obtain ⟨m1, m2⟩ := mean_eq H (e := 201) (by norm_num) hne hb hl
  have h2' : (2 : ℝ) ≤ xs.length := by exact_mod_cast h2
  rw [finVals_finVec]
  simp only [v1, m1]
  generalize varR (wideLib L order) 1 xs = V at *
  generalize meanR (wideLib L order) xs = m at *
  have a1 : |m - 0| ≤ 2 ^ 201 := by rwa [sub_zero]
  have q0 : 0 ≤ V / xs.length := by positivity
  have a2 : |V / xs.length| ≤ 2 ^ 405 := by
    rw [abs_of_nonneg q0, div_le_iff₀ (by linarith)]
    exact v3.trans (le_mul_of_one_le_right (by positivity) (by linarith))
  have w0 : 0 ≤ ieeeRound (V / xs.length) := by
    have := ieeeRound_mono q0
    rwa [ieeeRound_monoRounding.zero] at this
  have a3 : FltBound 740 ((Flt.fin (ieeeRound (m - 0))).div (.fin (L.sqrt (ieeeRound (V / xs.length))))) := by
    intro y hy
    simp only [Flt.div] at hy
    split_ifs at hy with hz
    · exact absurd hy signInf_not
    · rw [Flt.fin.injEq] at hy
      have wp : 0 < ieeeRound (V / xs.length) := by
        refine lt_of_le_of_ne w0 fun e => hz ?_
        rw [← e, H.sqrt_zero]
      have w1 := float_ge (ieeeRound_idem _) wp
      have w2 := H.sqrt_ge _ (ieeeRound_idem _) w0
      have s0 := H.sqrt_nonneg _ w0
      generalize L.sqrt (ieeeRound (V / xs.length)) = s at *
      have sp : 0 < s := lt_of_le_of_ne s0 (Ne.symm hz)
      have s1 : (2 ^ 538)⁻¹ ≤ s := by
        refine le_of_sq_le_sq ?_ s0
        rw [inv_pow, ← pow_mul]
        have e4 : ((2 : ℝ) ^ (538 * 2))⁻¹ = (2 ^ 1074)⁻¹ / 4 := by
          rw [show 538 * 2 = 1074 + 2 by norm_num, pow_add, mul_inv]
          ring
        rw [e4, sq]
        linarith
      rw [← hy, abs_div, abs_of_pos sp, div_le_iff₀ sp]
      refine (ieee_bound a1).trans ?_
      have e5 : (2 : ℝ) ^ 201 ≤ 2 ^ 740 * (2 ^ 538)⁻¹ := by
        rw [show 740 = 202 + 538 by norm_num, pow_add, mul_assoc, mul_inv_cancel₀ (by positivity), mul_one]
        exact pow_le_of (by norm_num)
      exact e5.trans (mul_le_mul_of_nonneg_left s1 (by positivity))
  rw [rnd_eq H.rnd a1 (by norm_num), rnd_eq H.rnd a2 (by norm_num), rF_eq' H a3 (by norm_num),
    rnd_eq (e := 0) H.rnd (x := 1 / 10 ^ 100) (by rw [abs_of_pos (by positivity)]; norm_num) (by norm_num)]
  have a4 : FltBound 0 ((L.tSf (xs.length - 1) (fabs (rF ieeeRound ((Flt.fin (ieeeRound (m - 0))).div
      (.fin (L.sqrt (ieeeRound (V / xs.length)))))))).mul (.fin 2)) := by
    have key : ∀ v : Flt ℝ, FltBound 0 ((L.tSf (xs.length - 1) (fabs v)).mul (.fin 2)) := by
      intro v
      have fin : ∀ t, (∃ p, L.tSf (xs.length - 1) t = .fin p ∧ 0 ≤ p ∧ p ≤ 1 / 2) →
          FltBound 0 ((L.tSf (xs.length - 1) t).mul (.fin 2)) := by
        rintro t ⟨p, e, p0, p1⟩
        rw [e]
        exact FltBound.fin (by rw [abs_of_nonneg (by linarith)]; simp; linarith)
      cases v with
      | fin y => exact fin _ (H.tSf _ _ (abs_nonneg y))
      | pinf => exact fin _ (H.tSf_inf _)
      | ninf => exact fin _ (H.tSf_inf _)
      | nan => simp only [fabs, H.tSf_nan]; intro x hx; simp [Flt.mul] at hx
    exact key _
  rw [rF_eq' H a4 (by norm_num)]
  rfl

end
end Mlp.Props
