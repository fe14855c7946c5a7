import Verif.Model.ClassIeee
import Verif.Spec.ClassIeee
import Verif.Props.RegrIeeeAgree
import Verif.Props.LossRange

/-!
# Property C150: `normalize` and the Brier loss in IEEE 754 double precision
-/

namespace Mlp.Props
open Mlp.Util Mlp.Frame Mlp.PerfR Mlp.PaperR Mlp.CurveR Mlp.LossR Mlp.Spec Mlp.Lemmas Mlp.Round Mlp.RegrI Mlp.ClassI

variable {L : Lib ℝ}

theorem iF_small {x : ℝ} (h : |x| ≤ 2 ^ 1023) : iF (.fin x) = .fin (ieeeRound x) := by
  obtain ⟨w, e, -⟩ := ieee64_le (pow_double le_rfl) h
  have := (ieee64_fin_iff.1 e).1
  rw [this]; exact e

theorem ieeeRound_nat {n : Nat} (h : n ≤ 2 ^ 53) : ieeeRound (n : ℝ) = n := by
  have hb : |(n : ℝ)| ≤ 2 ^ 53 := by
    rw [abs_of_nonneg (by positivity)]; exact_mod_cast h
  have hg : OnGrid 0 53 (n : ℝ) := ⟨⟨n, by simp⟩, hb⟩
  rw [ieeeRound_inRange (hg.inRange (by norm_num) (by norm_num))]
  have := binary64_exact (K := ℝ) n 0 (by rw [abs_of_nonneg (by positivity)]; exact_mod_cast h)
  simpa using this

/-- What `np.exp(v - m)` is for an entry of a row. -/
noncomputable def expShiftI (L : Lib ℝ) (m : ℝ) (v : Flt ℝ) : ℝ :=
  match iF (v.sub (.fin m)) with
  | .fin x => L.exp x
  | _ => 0

theorem shift_cases {m : ℝ} {v : Flt ℝ} (h : v ≠ .nan ∧ v ≠ .pinf) (hv : ∀ x, v = .fin x → x ≤ m) :
    iF (v.sub (.fin m)) = .ninf ∨ ∃ x, iF (v.sub (.fin m)) = .fin x ∧ x ≤ 0 := by
  cases v with
  | fin x =>
    rw [Flt.sub_fin]
    have := ieee64_mono (show x - m ≤ 0 by linarith [hv x rfl])
    rw [ieee64_zero] at this
    show ieee64 (x - m) = _ ∨ ∃ y, ieee64 (x - m) = _ ∧ _
    cases e : ieee64 (x - m) with
    | fin w => rw [e, Flt.fin_le_fin] at this; exact Or.inr ⟨w, rfl, this⟩
    | ninf => exact Or.inl rfl
    | pinf => rw [e] at this; simp at this
    | nan => exact absurd e (ieee64_ne_nan _)
  | ninf => exact Or.inl rfl
  | pinf => simp at h
  | nan => simp at h

theorem fexpR_shiftI {m : ℝ} {v : Flt ℝ} (h : v ≠ .nan ∧ v ≠ .pinf) (hv : ∀ x, v = .fin x → x ≤ m) :
    fexpR L (iF (v.sub (.fin m))) = .fin (expShiftI L m v) := by
  unfold expShiftI
  rcases shift_cases h hv with e | ⟨x, e, -⟩ <;> rw [e] <;> rfl

theorem expShiftI_range (hL : IeeeExpLog L) {m : ℝ} {v : Flt ℝ} (h : v ≠ .nan ∧ v ≠ .pinf) (hv : ∀ x, v = .fin x → x ≤ m) :
    0 ≤ expShiftI L m v ∧ expShiftI L m v ≤ 1 := by
  unfold expShiftI
  rcases shift_cases h hv with e | ⟨x, e, hx⟩ <;> rw [e]
  · simp
  · exact ⟨hL.exp_nonneg x, hL.exp_le_one x hx⟩

/-- `logsumexp` of a proper row of doubles is a double, at least as large as every entry, and at most 2048 above the largest. -/
theorem logsumexpI_ge (hL : IeeeExpLog L) {r : List (Flt ℝ)} (h : Proper r) (hf : DoubleRow r) (hn : r.length ≤ 2 ^ 53) :
    ∃ m z : ℝ, Flt.fin m ∈ r ∧ (∀ x : ℝ, .fin x ∈ r → x ≤ m) ∧ logsumexpI L r = .fin z ∧ IsBinary64 z ∧ m ≤ z ∧ z ≤ m + 2 ^ 11 ∧
      ieee64 (L.log (L.sum (r.map (expShiftI L m))) + m) = .fin z ∧ amax r = .fin m := by
  obtain ⟨m, hm⟩ := amax_proper h
  have hmem : Flt.fin m ∈ r := by
    rcases (amax_spec r).2 with h2 | h2
    · rwa [hm] at h2
    · rw [hm] at h2; cases h2
  have hle : ∀ x : ℝ, .fin x ∈ r → x ≤ m := by
    intro x hx
    have := (amax_spec r).1 _ hx
    rw [hm] at this
    simpa using this
  have hv : ∀ v ∈ r, ∀ x, v = .fin x → x ≤ m := by
    rintro v hv x rfl
    exact hle x hv
  have e : (r.map fun v => fexpR L (iF (v.sub (.fin m)))) = (r.map (expShiftI L m)).map Flt.fin := by
    rw [List.map_map]
    apply List.map_congr_left
    intro v hv'
    exact fexpR_shiftI (h.1 v hv') (hv v hv')
  have hr : MonoRounding L.rnd := by rw [hL.rnd]; exact ieeeRound_monoRounding
  have h0 : ∀ v ∈ r.map (expShiftI L m), 0 ≤ v ∧ v ≤ 1 := by
    intro v hv'
    obtain ⟨w, hw, rfl⟩ := List.mem_map.1 hv'
    exact expShiftI_range hL (h.1 w hw) (hv w hw)
  have hs : 1 ≤ L.sum (r.map (expShiftI L m)) := by
    have h1 : (1 : ℝ) ∈ r.map (expShiftI L m) := by
      refine List.mem_map.2 ⟨_, hmem, ?_⟩
      unfold expShiftI
      rw [Flt.sub_fin, sub_self]
      have : iF (.fin (0 : ℝ)) = .fin 0 := ieee64_zero
      rw [this]
      exact hL.exp_zero
    exact sum_ge_mem hr hL.sum (fun v hv => (h0 v hv).1) h1 hr.one
  have hs2 : L.sum (r.map (expShiftI L m)) ≤ 2 ^ 53 := by
    have := sum_le_length hr hL.sum (fun v hv => (h0 v hv).2) (by
      intro k hk
      rw [hL.rnd]
      exact ieeeRound_nat (hk.trans (by simpa using hn)))
    refine this.trans ?_
    rw [List.length_map]
    exact_mod_cast hn
  obtain ⟨l0, l1⟩ := hL.log_range _ hs hs2
  have hmd := hf m hmem
  set s := L.log (L.sum (r.map (expShiftI L m)))
  have hfin : ∃ z, ieee64 (s + m) = .fin z := by
    have hm2 := abs_lt.1 (double_lt hmd)
    have hlow := ieee64_mono (show m ≤ s + m by linarith)
    rw [ieee64_double hmd] at hlow
    cases ez : ieee64 (s + m) with
    | fin z => exact ⟨z, rfl⟩
    | ninf => rw [ez] at hlow; simp at hlow
    | nan => exact absurd ez (ieee64_ne_nan _)
    | pinf =>
      exfalso
      have hov := (C127_overflow (x := s + m)).1.1 ez
      have hmax : m ≤ 2 ^ 1024 - 2 ^ 971 := by
        obtain ⟨k, e', hk, -, he, rfl⟩ := hmd
        have hk2 : (k : ℝ) ≤ 2 ^ 53 - 1 := by
          have : k ≤ 2 ^ 53 - 1 := by have := (abs_lt.1 hk).2; omega
          exact_mod_cast this
        have hpe : (2 : ℝ) ^ e' ≤ 2 ^ (971 : Int) := zpow_le_zpow_right₀ (by norm_num) he
        have hp0 : (0 : ℝ) < 2 ^ e' := by positivity
        have e971 : ((2 : ℝ) ^ (971 : Int)) = 2 ^ 971 := by exact_mod_cast rfl
        rw [e971] at hpe
        calc (k : ℝ) * 2 ^ e' ≤ (2 ^ 53 - 1) * 2 ^ e' := mul_le_mul_of_nonneg_right hk2 hp0.le
          _ ≤ (2 ^ 53 - 1) * 2 ^ 971 := mul_le_mul_of_nonneg_left hpe (by norm_num)
          _ = 2 ^ 1024 - 2 ^ 971 := by rw [sub_mul, ← pow_add, one_mul]
      have h971 : (2 : ℝ) ^ 971 = 2 * 2 ^ 970 := by rw [← pow_succ']
      have h970 : (2 : ℝ) ^ 10 < 2 ^ 970 := pow_lt_pow_right₀ (by norm_num) (by norm_num)
      rw [h971] at hmax
      generalize (2 : ℝ) ^ 1024 = T at *
      generalize (2 : ℝ) ^ 970 = A at *
      generalize (2 : ℝ) ^ 10 = B at *
      linarith
  obtain ⟨z, hz⟩ := hfin
  have hnear := (C127_nearest hz).2 m hmd
  refine ⟨m, z, hmem, hle, ?_, (C127_nearest hz).1, ?_, ?_, hz, hm⟩
  · unfold logsumexpI
    rw [hm]
    simp only [Flt.isFinite, if_true]
    rw [sumFR_fin _ e]
    simp only [flogR, if_pos (lt_of_lt_of_le one_pos hs), Flt.add_fin]
    exact hz
  · have := ieee64_mono (show m ≤ s + m by linarith)
    rwa [ieee64_double hmd, hz, Flt.fin_le_fin] at this
  · have h1 := hnear.1
    rw [show s + m - m = s by ring, abs_of_nonneg l0] at h1
    have h2 := neg_abs_le (s + m - z)
    norm_num at l1 ⊢
    linarith

theorem normalizeRowsI_eq {p : Mat ℝ} (hc : 1 ≤ p.ncols) : normalizeRowsI L p =
    .ok ⟨p.ncols, p.rows.map fun r => r.map fun v => iF (v.sub (logsumexpI L r))⟩ := by
  rw [normalizeRowsI, pyAssert_bind, if_pos (decide_eq_true hc)]; rfl

/-- **C150, `normalize`.**  If every row has only doubles and `-inf` in it, not only `-inf`, then `normalize` returns rows of the same kind in which no entry is positive or NaN, in the same order.  Impossible
labels stay impossible; a possible one becomes impossible only by overflow: if another entry of the row is larger by about `2 ^ 1024`, and not if none is larger by more than `2 ^ 1023`. -/
theorem C150_normalize (hL : IeeeExpLog L) {p : Mat ℝ} (hc : 1 ≤ p.ncols) (hp : ∀ r ∈ p.rows, Proper r)
    (hf : ∀ r ∈ p.rows, DoubleRow r) (hn : ∀ r ∈ p.rows, r.length ≤ 2 ^ 53) :
    ∃ q, normalizeRowsI L p = .ok q ∧ q.ncols = p.ncols ∧
      List.Forall₂ (fun r r' => r'.length = r.length ∧ Proper r' ∧ DoubleRow r' ∧ AtMostZero r' ∧
        (∀ i : Nat, r[i]? = some .ninf → r'[i]? = some .ninf) ∧
        (∀ (i : Nat) (x : ℝ), r[i]? = some (.fin x) → (∀ y : ℝ, .fin y ∈ r → y ≤ x + 2 ^ 1023) → r'[i]? ≠ some .ninf) ∧
        (∀ (i : Nat) (x y : ℝ), r[i]? = some (.fin x) → .fin y ∈ r → x + (2 ^ 1024 - 2 ^ 970) ≤ y → r'[i]? = some .ninf) ∧
        ∀ (i j : Nat) (x y : ℝ) (x' y' : Flt ℝ), r[i]? = some (.fin x) → r[j]? = some (.fin y) → r'[i]? = some x' →
          r'[j]? = some y' → x ≤ y → x' ≤ y') p.rows q.rows := by
  refine ⟨_, normalizeRowsI_eq hc, rfl, ?_⟩
  rw [List.forall₂_map_right_iff, List.forall₂_same]
  intro r hr
  obtain ⟨m, z, hm, hmax, hz, hzd, hz1, hz2, -, -⟩ := logsumexpI_ge hL (hp r hr) (hf r hr) (hn r hr)
  rw [hz]
  have hfinite : ∀ x : ℝ, Flt.fin x ∈ r → m ≤ x + 2 ^ 1023 → ∃ w, ieee64 (x - z) = .fin w := by
    intro x hx hd
    have hxm := hmax x hx
    obtain ⟨w, e, -⟩ := ieee64_le (near_double 1 le_rfl (by norm_num)) (x := x - z) (by
      rw [abs_of_nonpos (by linarith)]
      have : (2 : ℝ) ^ 11 ≤ 2 ^ 971 := pow_le_pow_right₀ (by norm_num) (by norm_num)
      push_cast
      generalize (2 : ℝ) ^ 1023 = T at *
      generalize (2 : ℝ) ^ 971 = A at *
      linarith)
    exact ⟨w, e⟩
  have key : ∀ v ∈ r, (iF (v.sub (.fin z)) = .ninf) ∨ ∃ w : ℝ, iF (v.sub (.fin z)) = .fin w ∧ IsBinary64 w ∧ w ≤ 0 := by
    intro v hv
    rcases shift_cases (m := z) ((hp r hr).1 v hv) (fun x hx => (hmax x (hx ▸ hv)).trans hz1) with e | ⟨w, e, hw⟩
    · exact Or.inl e
    · refine Or.inr ⟨w, e, ?_, hw⟩
      cases v with
      | fin x => rw [Flt.sub_fin] at e; exact (C127_nearest (show ieee64 (x - z) = .fin w from e)).1
      | ninf => cases e
      | pinf => exact absurd rfl ((hp r hr).1 _ hv).2
      | nan => exact absurd rfl ((hp r hr).1 _ hv).1
  have get : ∀ (i : Nat) (v : Flt ℝ), r[i]? = some v → (r.map fun v => iF (v.sub (.fin z)))[i]? = some (iF (v.sub (.fin z))) := by
    intro i v hv
    rw [List.getElem?_map, hv]; rfl
  refine ⟨by simp, ⟨?_, ?_⟩, ?_, ?_, ?_, ?_, ?_, ?_⟩
  · intro v hv
    obtain ⟨w, hw, rfl⟩ := List.mem_map.1 hv
    rcases key w hw with e | ⟨x, e, -⟩ <;> rw [e] <;> simp
  · have h0 : (0 : ℝ) ≤ 2 ^ 1023 := by positivity
    obtain ⟨w, hw⟩ := hfinite m hm (le_add_of_nonneg_right h0)
    exact ⟨w, List.mem_map.2 ⟨_, hm, by rw [Flt.sub_fin]; exact hw⟩⟩
  · intro x hx
    obtain ⟨w, hw, e'⟩ := List.mem_map.1 hx
    rcases key w hw with e | ⟨y, e, hy, -⟩
    · rw [e] at e'; cases e'
    · rw [e, Flt.fin.injEq] at e'; rwa [← e']
  · intro v hv
    obtain ⟨w, hw, rfl⟩ := List.mem_map.1 hv
    rcases key w hw with e | ⟨y, e, -, hy⟩
    · exact Or.inl e
    · exact Or.inr ⟨y, hy, e⟩
  · intro i hi
    rw [get i _ hi]; rfl
  · intro i x hi hd
    rw [get i _ hi, Flt.sub_fin]
    obtain ⟨w, hw⟩ := hfinite x (List.mem_of_getElem? hi) (hd m hm)
    have : iF (.fin (x - z)) = .fin w := hw
    rw [this]; simp
  · intro i x y hi hy hd
    rw [get i _ hi, Flt.sub_fin]
    have hy2 := hmax y hy
    have : ieee64 (x - z) = .ninf := (C127_overflow (x := x - z)).2.1.2 (by
      generalize (2 : ℝ) ^ 1024 - 2 ^ 970 = T at *
      linarith)
    exact congrArg some this
  · intro i j x y x' y' hi hj hi' hj' hxy
    rw [get i _ hi, Option.some.injEq, Flt.sub_fin] at hi'
    rw [get j _ hj, Option.some.injEq, Flt.sub_fin] at hj'
    rw [← hi', ← hj']
    exact ieee64_mono (by linarith)

end Mlp.Props
