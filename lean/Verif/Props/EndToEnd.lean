import Verif.Props.Table

/-! # Property C22: from the float table to the printed cell -/

namespace Mlp.Props
open Mlp Spec Sciprint

/-- Rounding to a unit never crosses a power of ten. -/
theorem roundsToUnit_le_pow (ee k : Int) (x y : ℚ) (h : RoundsToUnit (10 ^ ee) x y) (hx : x ≤ 10 ^ k) :
    y ≤ 10 ^ k := by
  obtain ⟨⟨i, hi⟩, hbest⟩ := h
  have hk := zpow10_pos k
  have hu := zpow10_pos ee
  by_contra hcon
  push Not at hcon
  rcases le_or_gt ee k with hle | hgt
  · have hj : (((10 ^ (k - ee).toNat : ℕ) : ℤ) : ℚ) * 10 ^ ee = 10 ^ k := by
      push_cast
      rw [← zpow_natCast, ← zpow_add₀ (by norm_num)]
      congr 1; omega
    have := (hbest ((10 ^ (k - ee).toNat : ℕ) : ℤ)).1
    rw [hj, abs_of_nonneg (by linarith), abs_of_nonneg (by linarith)] at this
    linarith
  · have h1 : (10 : ℚ) ^ k * 10 ≤ 10 ^ ee := by
      rw [← zpow_add_one₀ (by norm_num)]
      exact zpow_le_zpow_right₀ (by norm_num) (by omega)
    have hi1 : 1 ≤ i := by
      by_contra hc
      have : (i : ℚ) ≤ 0 := by exact_mod_cast (by omega : i ≤ 0)
      nlinarith
    have hi1' : (1 : ℚ) ≤ i := by exact_mod_cast hi1
    have hy : 10 ^ ee ≤ y := by rw [hi]; nlinarith
    have := (hbest 0).1
    simp only [Int.cast_zero, zero_mul, zero_sub, abs_neg] at this
    rw [abs_of_nonneg (by linarith)] at this
    rcases abs_cases x with ⟨h2, h3⟩ | ⟨h2, h3⟩ <;> rw [h2] at this <;> linarith

theorem roundsToUnit_neg {u x y : ℚ} (h : RoundsToUnit u x y) : RoundsToUnit u (-x) (-y) := by
  obtain ⟨⟨i, hi⟩, hb⟩ := h
  refine ⟨⟨-i, by rw [hi]; push_cast; ring⟩, fun k => ?_⟩
  have := hb (-k)
  have e1 : |(((-k : ℤ)) : ℚ) * u - x| = |(k : ℚ) * u - -x| := by
    rw [← abs_neg]; congr 1; push_cast; ring
  have e2 : |-y - -x| = |y - x| := by rw [← abs_neg]; congr 1; ring
  have e3 : |(((-k : ℤ)) : ℚ) * u| = |(k : ℚ) * u| := by
    rw [← abs_neg]; congr 1; push_cast; ring
  rw [e1, e3] at this
  rw [e2, abs_neg]; exact this

theorem roundsHalfUp_le_pow (d : Nat) (hd : 1 ≤ d) (k : Int) (x y : ℚ) (h : RoundsHalfUp d x y)
    (hx : x ≤ 10 ^ k) : y ≤ 10 ^ k := by
  by_contra hcon
  push Not at hcon
  have hg : SigGrid d ((10 : ℚ) ^ k) :=
    ⟨false, 1, k, Nat.one_lt_pow (by omega) (by norm_num), by simp [sval]⟩
  have := (h.2 _ hg).1
  rw [abs_of_nonneg (by linarith), abs_of_nonneg (by linarith)] at this
  linarith

theorem roundsHalfUp_ge_pow (d : Nat) (hd : 1 ≤ d) (k : Int) (x y : ℚ) (h : RoundsHalfUp d x y)
    (hx : -10 ^ k ≤ x) : -10 ^ k ≤ y := by
  by_contra hcon
  push Not at hcon
  have hg : SigGrid d (-(10 : ℚ) ^ k) :=
    ⟨true, 1, k, Nat.one_lt_pow (by omega) (by norm_num), by simp [sval]⟩
  have := (h.2 _ hg).1
  rw [abs_of_nonpos (by linarith), abs_of_nonpos (by linarith)] at this
  linarith

/-- The converted error bar, case by case on the float error bar. -/
theorem err_cases (o : DecimalizeOpts) (lim : Option Int) (x : FpCell) (r : DecCell)
    (h : decimalizeCell o lim x = .ok r) :
    (∀ a b c, x.err = .fin a b c → 0 < fval a b c → (∀ k, lim = some k → fval a b c ≤ 10 ^ k) →
      ∃ ec ek, r.err = .fin false ec ek ∧ ec ≠ 0 ∧ fval a b c ≤ sval false ec ek ∧
        sval false ec ek < fval a b c + 10 ^ ek ∧ RoundsUp o.errDigits (fval a b c) (sval false ec ek)) ∧
    (∀ a b c, x.err = .fin a b c → fval a b c = 0 → ∃ en ek, r.err = .fin en 0 ek) ∧
    ((x.err = .nan ∨ (∃ b, x.err = .inf b) ∨ ∃ k a b c, lim = some k ∧ x.err = .fin a b c ∧ 10 ^ k < fval a b c) →
      r.err = .nan ∨ r.err = .inf false) := by
  obtain ⟨h1, eb0, he, hnn, herr, -⟩ := decimalizeCell_ok h
  refine ⟨?_, ?_, ?_⟩
  · intro a b c hx hpos hlim
    obtain ⟨n, ec, ek, hc, hlt, hr⟩ := C04_create_decimal_ceiling a b c o.errDigits h1
    rw [hx, hc] at he
    cases he
    have hv : 0 < sval n ec ek := lt_of_lt_of_le hpos hr.1.2
    have hn : n = false := by
      cases n with
      | false => rfl
      | true => rw [sval_neg] at hv; linarith [sval_nonneg ec ek]
    subst hn
    have hec : ec ≠ 0 := by rintro rfl; simp [sval] at hv
    have hk := zpow10_pos ek
    have hclip : clipErr lim (.fin false ec ek) = .fin false ec ek := by
      unfold clipErr
      rw [if_pos]
      cases lim with
      | none => rfl
      | some k =>
        have : DLe (.fin false ec ek) (.fin false 1 k) := by
          simp only [DLe]
          have hg : SigGrid o.errDigits ((10 : ℚ) ^ k) :=
            ⟨false, 1, k, Nat.one_lt_pow (by omega) (by norm_num), by simp [sval]⟩
          have := hr.2 ⟨hg, hlim k rfl⟩
          simpa [sval] using this
        simp only [Bool.or_eq_true]
        right
        exact (leNum_iff _ _).mpr this
    refine ⟨ec, ek, by rw [herr, hclip], hec, hr.1.2, ?_, hr⟩
    by_contra hcon
    push Not at hcon
    have hg : SigGrid o.errDigits (sval false ec ek - 10 ^ ek) := by
      refine ⟨false, ec - 1, ek, by omega, ?_⟩
      unfold sval
      push_cast [Nat.pos_of_ne_zero hec]
      simp; ring
    have := hr.2 ⟨hg, by linarith⟩
    linarith
  · intro a b c hx h0
    obtain ⟨n, ec, ek, hc, hlt, hr⟩ := C04_create_decimal_ceiling a b c o.errDigits h1
    rw [hx, hc] at he
    cases he
    have hnn' : 0 ≤ sval n ec ek := by simpa [Dec.isNan, leNum_zero_fin] using hnn
    have h0g : SigGrid o.errDigits 0 := ⟨false, 0, 0, by positivity, by simp [sval]⟩
    have h1' := hr.2 ⟨h0g, by rw [h0]⟩
    have hec : ec = 0 := (sval_eq_zero _ _ _).mp (le_antisymm h1' hnn')
    subst hec
    refine ⟨n, ek, ?_⟩
    rw [herr]
    unfold clipErr
    rw [if_pos]
    cases lim with
    | none => rfl
    | some k =>
      simp only [Bool.or_eq_true]
      right
      refine (leNum_iff _ _).mpr ?_
      simp only [DLe]
      have := zpow10_pos k
      simp [sval]; positivity
  · intro hx
    rcases hx with hx | ⟨b, hx⟩ | ⟨k, a, b, c, rfl, hx, hgt⟩
    · left; exact (C05_error_special o lim x r h).1 hx
    · right; exact (C05_error_special o lim x r h).2 b hx
    · right
      obtain ⟨n, ec, ek, hc, hlt, hr⟩ := C04_create_decimal_ceiling a b c o.errDigits h1
      refine (C09_eb_limit o k x r (.fin n ec ek) h (by rw [hx, hc])).1 ?_
      simp only [DLt]
      have := hr.1.2
      have e : sval false 1 k = 10 ^ k := by simp [sval]
      rw [e]; linarith

/-- The converted mean: half-up to the unit of the error bar, or to the default digits. -/
theorem mean_cases (o : DecimalizeOpts) (lim : Option Int) (x : FpCell) (r : DecCell)
    (h : decimalizeCell o lim x = .ok r) (hd : 1 ≤ o.defaultDigits) (hd28 : o.defaultDigits ≤ 28)
    (n : Bool) (m : Nat) (e : Int) (hx : x.mean = .fin n m e) :
    ∃ n' c k, r.mean = .fin n' c k ∧ c < 10 ^ 28 ∧
      (∀ j : Int, fval n m e ≤ 10 ^ j → sval n' c k ≤ 10 ^ j) ∧
      (∀ j : Int, -10 ^ j ≤ fval n m e → -10 ^ j ≤ sval n' c k) ∧
      (∀ en ec ee, r.err = .fin en ec ee → ec ≠ 0 → k = ee ∧ |sval n' c k - fval n m e| ≤ 10 ^ ee / 2) ∧
      ((∀ en ec ee, r.err = .fin en ec ee → ec = 0) →
        RoundsHalfUp o.defaultDigits (fval n m e) (sval n' c k)) := by
  by_cases hr : ∀ en ec ee, r.err = .fin en ec ee → ec = 0
  · obtain ⟨n', c, k, hm, hlt, hR⟩ := C07_mean_default_digits o lim x r n m e hx hr h
    refine ⟨n', c, k, hm, lt_of_lt_of_le hlt (Nat.pow_le_pow_right (by norm_num) hd28),
      fun j => roundsHalfUp_le_pow _ hd j _ _ hR, fun j => roundsHalfUp_ge_pow _ hd j _ _ hR,
      fun en ec ee he hne => absurd (hr en ec ee he) hne, fun _ => hR⟩
  · push Not at hr
    obtain ⟨en, ec, ee, he, hne⟩ := hr
    obtain ⟨c, hm, hlt, hR, hhalf⟩ := C07_mean_half_up_to_error_quantum o lim x r n m e hx en ec ee he hne h
    refine ⟨n, c, ee, hm, hlt, fun j => roundsToUnit_le_pow ee j _ _ hR, fun j hj => ?_, ?_, ?_⟩
    · have := roundsToUnit_le_pow ee j _ _ (roundsToUnit_neg hR) (by linarith)
      linarith
    · intro en' ec' ee' he' _
      rw [he] at he'
      cases he'
      exact ⟨rfl, hhalf⟩
    · intro hz
      exact absurd (hz en ec ee he) hne

/-- **C22** One cell from floats to text.  If it prints at all, then either the text says
`>10^k`/`<-10^k` (scaled) and the float mean really is beyond that crap limit, or the text reads
back (`readEst`) as a mean `v` with `places` decimals and possibly an error `E` such that:
with a positive float error within the limit, `v` is within half a unit of the last place of the
scaled float mean and `E` is the float error rounded up to two digits and scaled, so it exceeds the scaled float error by less
than one unit of the last place; otherwise `v` is the mean rounded half-up to five digits and the error is shown as zero or
not at all. -/
theorem C22_cell (lim : Option Int) (x : FpCell) (r : DecCell)
    (h : decimalizeCell { errDigits := 2, pvalDigits := 4, defaultDigits := 5 } lim x = .ok r) (n : Bool) (m : Nat) (e : Int) (hx : x.mean = .fin n m e)
    (s : Int) (kmin kmax : Option Int) (nff : NonFiniteFmt) (t : Str)
    (ht : printEstimate r.mean r.err s (lowClip kmin) (highClip kmax) nff = .ok t) :
    (∃ k u, kmax = some k ∧ t = '>' :: u ∧
      readEst u = some (10 ^ (k + s), (-(k + s)).toNat, none) ∧ 10 ^ k < fval n m e) ∨
    (∃ k u, kmin = some k ∧ t = '<' :: u ∧
      readEst u = some (-10 ^ (k + s), (-(k + s)).toNat, none) ∧ fval n m e < -10 ^ k) ∨
    ∃ v places ev, readEst t = some (v, places, ev) ∧
      (∀ a b c, x.err = .fin a b c → 0 < fval a b c → (∀ k, lim = some k → fval a b c ≤ 10 ^ k) →
        |v - shifted (fval n m e) s| ≤ 10 ^ (-(places : Int)) / 2 ∧
        ∃ E, ev = some E ∧ shifted (fval a b c) s ≤ E ∧
          E < shifted (fval a b c) s + 10 ^ (-(places : Int)) ∧
          ∃ y, RoundsUp 2 (fval a b c) y ∧ E = shifted y s) ∧
      (∀ a b c, x.err = .fin a b c → fval a b c = 0 →
        ev = some 0 ∧ ∃ y, RoundsHalfUp 5 (fval n m e) y ∧ v = shifted y s) ∧
      ((x.err = .nan ∨ (∃ b, x.err = .inf b) ∨
          ∃ k a b c, lim = some k ∧ x.err = .fin a b c ∧ 10 ^ k < fval a b c) →
        ev = none ∧ ∃ y, RoundsHalfUp 5 (fval n m e) y ∧ v = shifted y s) := by
  have hv := validClips_limits kmin kmax
  obtain ⟨n', c, k, hm, hlt, hup, hdn, hq, hdef⟩ :=
    mean_cases {} lim x r h (by decide) (by decide) n m e hx
  obtain ⟨e1, e2, e3⟩ := err_cases {} lim x r h
  obtain ⟨c1, c2⟩ := C03_clipped_reads_back r.mean r.err s (lowClip kmin) (highClip kmax) nff hv
  rcases clip_cases r.mean _ _ hv with hc | hc | hc | ⟨hb, ha⟩
  · left
    cases kmax with
    | none => rw [hm] at hc; simp [highClip, DLt] at hc
    | some j =>
      obtain ⟨u, hu, hread⟩ := c1 false 1 j rfl (by norm_num) hc
      rw [ht] at hu
      injection hu with hu
      refine ⟨j, u, rfl, hu, ?_, ?_⟩
      · rw [hread, ← sval_shift]; simp [sval]
      · by_contra hcon
        push Not at hcon
        have := hup j hcon
        rw [hm] at hc
        simp only [highClip, DLt] at hc
        have e : sval false 1 j = 10 ^ j := by simp [sval]
        rw [e] at hc; linarith
  · right; left
    cases kmin with
    | none => rw [hm] at hc; simp [lowClip, DLt] at hc
    | some j =>
      obtain ⟨u, hu, hread⟩ := c2 true 1 j rfl (by norm_num) hc
      rw [ht] at hu
      injection hu with hu
      refine ⟨j, u, rfl, hu, ?_, ?_⟩
      · rw [hread, ← sval_shift]; simp [sval]
      · by_contra hcon
        push Not at hcon
        have := hdn j hcon
        rw [hm] at hc
        simp only [lowClip, DLt] at hc
        have e : sval true 1 j = -10 ^ j := by simp [sval]
        rw [e] at hc; linarith
  · rw [hm] at hc; cases hc
  · right; right
    rw [hm] at ht hb ha
    -- the shift keeps the mean defined to the point
    have hdot : k + s ≤ 0 := by
      by_contra hcon
      rw [(printEstimate_fin n' c k r.err s _ _ nff hv hb ha n' c (k + s)
        (scaleb_exact s n' c k hlt)).1 (by omega)] at ht
      cases ht
    have hplaces : (10 : ℚ) ^ (-((((-(k + s)).toNat : ℕ)) : Int)) = 10 ^ (k + s) := by
      congr 1; omega
    have hsp := zpow10_pos s
    have hshift : (10 : ℚ) ^ (k + s) = 10 ^ k * 10 ^ s := zpow_add₀ (by norm_num) _ _
    cases hre : r.err with
    | fin en ec ee =>
      rw [hre] at ht
      have hread := C01_read_back n' c k en ec ee s _ _ nff t hlt hb ha ht
      refine ⟨_, _, _, hread, ?_, ?_, ?_⟩
      · intro a b c' hxe hpos hlim
        obtain ⟨ec', ek', hre', hne, h3, h4, h5⟩ := e1 a b c' hxe hpos hlim
        rw [hre] at hre'
        injection hre' with he1 he2 he3
        subst he1 he2 he3
        obtain ⟨rfl, hhalf⟩ := hq _ _ _ hre hne
        rw [hplaces, hshift]
        refine ⟨?_, _, rfl, ?_, ?_, _, h5, rfl⟩
        · unfold shifted
          rw [← sub_mul, abs_mul, abs_of_pos hsp]
          have := mul_le_mul_of_nonneg_right hhalf hsp.le
          linarith
        · unfold shifted
          exact mul_le_mul_of_nonneg_right h3 hsp.le
        · unfold shifted
          rw [← add_mul]
          exact mul_lt_mul_of_pos_right h4 hsp
      · intro a b c' hxe h0
        obtain ⟨en', ek', hre'⟩ := e2 a b c' hxe h0
        rw [hre] at hre'
        injection hre' with he1 he2 he3
        subst he1 he2 he3
        refine ⟨by simp [shifted, sval], _, hdef ?_, rfl⟩
        intro en2 ec2 ee2 h2
        rw [hre] at h2
        injection h2 with _ h2 _
        exact h2.symm
      · intro hcase
        rcases e3 hcase with h3 | h3 <;> rw [hre] at h3 <;> cases h3
    | nan =>
      rw [hre] at ht
      have hread := (C01_read_back_no_error n' c k _ (Or.inl rfl) s _ _ nff t hlt hb ha ht).1
      refine ⟨_, _, _, hread, ?_, ?_, ?_⟩
      · intro a b c' hxe hpos hlim
        obtain ⟨_, _, hre', _⟩ := e1 a b c' hxe hpos hlim
        rw [hre] at hre'; cases hre'
      · intro a b c' hxe h0
        obtain ⟨_, _, hre'⟩ := e2 a b c' hxe h0
        rw [hre] at hre'; cases hre'
      · intro _
        refine ⟨rfl, _, hdef ?_, rfl⟩
        intro _ _ _ h2
        rw [hre] at h2; cases h2
    | inf w =>
      rw [hre] at ht
      have hread := (C01_read_back_no_error n' c k _ (Or.inr ⟨w, rfl⟩) s _ _ nff t hlt hb ha ht).1
      refine ⟨_, _, _, hread, ?_, ?_, ?_⟩
      · intro a b c' hxe hpos hlim
        obtain ⟨_, _, hre', _⟩ := e1 a b c' hxe hpos hlim
        rw [hre] at hre'; cases hre'
      · intro a b c' hxe h0
        obtain ⟨_, _, hre'⟩ := e2 a b c' hxe h0
        rw [hre] at hre'; cases hre'
      · intro _
        refine ⟨rfl, _, hdef ?_, rfl⟩
        intro _ _ _ h2
        rw [hre] at h2; cases h2

/-- **C22** The p column: `<0.0001` only for a p-value strictly below 0.0001, otherwise the p-value
rounded up to four places. -/
theorem C22_pval_cell (lim : Option Int) (x : FpCell) (r : DecCell)
    (h : decimalizeCell { errDigits := 2, pvalDigits := 4, defaultDigits := 5 } lim x = .ok r) (n : Bool) (m : Nat) (e : Int) (hx : x.pval = .fin n m e)
    (nff : NonFiniteFmt) (t : Str) (ht : printPval r.pval nff = .ok t) :
    (t = "<0.0001".toList ∧ fval n m e < 1 / 10000) ∨
    ∃ v, readNum t = some (v, 4) ∧ fval n m e ≤ v ∧ v < fval n m e + 1 / 10000 := by
  obtain ⟨c, hr, hceil, hge, hlt, h0, h1⟩ := C06_pval_never_understated {} lim x r n m e hx h
  simp only [] at hr hceil hge hlt h0 h1
  have e4 : (10 : ℚ) ^ (-((4 : ℕ) : Int)) = 1 / 10000 := by norm_num
  rw [hr] at ht
  obtain ⟨-, k2, k3, -⟩ := printPval_fin n c (-((4 : ℕ) : Int)) nff
  rcases le_or_gt (sval n c (-((4 : ℕ) : Int))) (10 ^ (-((4 : ℕ) : Int))) with hle | hgt
  · left
    rw [k2 h0 hle] at ht
    injection ht with ht
    refine ⟨by rw [← ht]; decide +kernel, ?_⟩
    rw [← e4]
    exact lt_of_le_of_ne (le_trans hge hle) (dyadic_ne_pow10 n m e 4 (by norm_num))
  · right
    rw [k3 hgt h1] at ht
    injection ht with ht
    refine ⟨_, by rw [← ht, readNum_genFmt]; rfl, hge, ?_⟩
    rw [← e4]; exact hlt

/-- Trailing pad of a padded column. -/
theorem padNumStr_aligned {l out : List Str} {pad : Char} (h : padNumStr l pad = .ok out) :
    ∃ w, List.Forall₂ (fun s t => (∃ k, t = s ++ List.replicate k pad) ∧ t.length = unitsLen s + w) l out := by
  have hne : l ≠ [] := by rintro rfl; cases h
  have h0 : ∀ s ∈ l, unitsLen s ≠ 0 := by
    intro s hs h0
    rw [(C16_padding_rejects pad).2 l s hs h0] at h
    cases h
  obtain ⟨out', w, hout, hw, -⟩ := C16_padding_aligns l pad hne h0
  rw [hout] at h
  cases h
  exact ⟨w, hw⟩

theorem forall₂_comp {α β γ : Type} {R : α → β → Prop} {S : β → γ → Prop} {l : List α} {m : List β}
    {r : List γ} (h1 : List.Forall₂ R l m) (h2 : List.Forall₂ S m r) :
    List.Forall₂ (fun a c => ∃ b, R a b ∧ S b c) l r := by
  induction h1 generalizing r with
  | nil => cases h2; exact .nil
  | cons h _ ih =>
    cases h2 with
    | cons h' h2 => exact .cons ⟨_, h, h'⟩ (ih h2)

/-- **C22** The whole table: when `just_format_it` gets to its export step, the columns are the
metrics in sorted order; the rows of a column are the methods in order; every cell is the printed
form (plus trailing spaces) of the `decimalize`d float cell with the column's one shift and
limits, to which `C22_cell` and `C22_pval_cell` apply; counted from the right end of the cell, the units digit is
at the same place in the whole column. -/
theorem C22_table (sortAbs : List Int → List Int) (ebLimit : Str → Option Int) (o : FormatOpts Str)
    (ud : Str → Option Str) (usePrefix useTex : Bool) (t : Table Str FpCell) (st : StrTable Str)
    (h : justFormatIt sortAbs ebLimit o ud usePrefix useTex t = .ok st) :
    st.cols.map Prod.fst = levels t.metrics ∧
    (∀ col ∈ st.cols, ∃ w, List.Forall₂ (fun method row =>
        ∃ r est k, decimalizeCell { errDigits := 2, pvalDigits := 4, defaultDigits := 5 } (ebLimit col.1) (t.cell method col.1) = .ok r ∧
          printEstimate r.mean r.err col.2.1 (lowClip (o.crapMin col.1)) (highClip (o.crapMax col.1)) o.nff
            = .ok est ∧ row.1 = est ++ List.replicate k ' ' ∧ row.1.length = unitsLen est + w ∧
          printPval r.pval o.nff = .ok row.2)
      t.methods col.2.2) ∧
    List.Forall₂ (fun el hd => ∃ col ∈ st.cols, col.1 = el.1 ∧
        adjustHeader (fun m => if m = col.1 then some col.2.1 else none) ud usePrefix useTex el = .ok hd)
      (st.cols.flatMap fun mc => [(mc.1, FmtStat.est), (mc.1, FmtStat.pval)]) st.headers := by
  unfold justFormatIt at h
  rw [bind_ok_iff] at h
  obtain ⟨d, hd, h⟩ := h
  obtain ⟨-, hdm, hdc⟩ := decimalize_table _ _ _ _ hd
  rw [pyAssert_bind] at h
  split at h
  swap
  · cases h
  rw [pyAssert_bind] at h
  split at h
  swap
  · cases h
  rw [bind_ok_iff] at h
  obtain ⟨cols, hcols, h⟩ := h
  unfold tableToStr at h
  have hst : ∃ headers, st = ⟨headers, cols⟩ ∧ adjustHeaders
      (cols.flatMap fun mc => [(mc.1, FmtStat.est), (mc.1, FmtStat.pval)])
      (fun m => (cols.find? fun mc => decide (mc.1 = m)).map fun mc => mc.2.1) ud usePrefix useTex =
        .ok headers := by
    simp only [] at h
    rw [bind_ok_iff] at h
    obtain ⟨hds, hh, h⟩ := h
    cases h
    exact ⟨hds, rfl, hh⟩
  clear h
  obtain ⟨headers, rfl, hheaders⟩ := hst
  simp only []
  unfold formatCols at hcols
  rw [mapM_ok_iff, List.forall₂_map_left_iff] at hcols
  have hcol : List.Forall₂ (fun (mc : Str × List (Str × DecCell)) (col : Str × Int × List (Str × Str)) =>
      col.1 = mc.1 ∧ formatColumn sortAbs { o with pad := true } mc.1 (mc.2.map fun x => x.2) = .ok col.2)
      d cols := by
    refine hcols.imp fun mc col hmc => ?_
    rw [bind_ok_iff] at hmc
    obtain ⟨rr, hrr, hmc⟩ := hmc
    cases hmc
    exact ⟨rfl, hrr⟩
  have hfst : cols.map Prod.fst = levels t.metrics := by
    rw [← hdm]
    clear hheaders hcols hdm hdc hd
    induction hcol with
    | nil => rfl
    | cons h _ ih => simp [h.1, ih]
  refine ⟨hfst, ?_, ?_⟩
  · have key : ∀ col ∈ cols, ∃ mc ∈ d, col.1 = mc.1 ∧
        formatColumn sortAbs { o with pad := true } mc.1 (mc.2.map fun x => x.2) = .ok col.2 := by
      clear hheaders hcols hdm hdc hd hfst
      induction hcol with
      | nil => simp
      | cons h _ ih =>
        intro col hmem
        rcases List.mem_cons.mp hmem with rfl | hmem
        · exact ⟨_, by simp, h⟩
        · obtain ⟨mc, hmc, h'⟩ := ih col hmem
          exact ⟨mc, by simp [hmc], h'⟩
    intro col hmem
    obtain ⟨mc, hmc, hname, hfmt⟩ := key col hmem
    obtain ⟨hmeth, hcells⟩ := hdc mc hmc
    rw [hname]
    obtain ⟨name, s, rows⟩ := col
    simp only [] at hname hfmt ⊢
    obtain ⟨-, -, -, -, ⟨ests, hest, -, hpad⟩, hpv⟩ := (C20_format_column _ _ _ _ _ _).mp hfmt
    obtain ⟨w, hpad'⟩ := padNumStr_aligned (hpad rfl)
    refine ⟨w, ?_⟩
    rw [← hmeth]
    rw [List.forall₂_map_left_iff] at hest hpv ⊢
    rw [List.forall₂_map_right_iff] at hpad' hpv
    have h3 := forall₂_and.mpr ⟨forall₂_comp hest hpad', hpv⟩
    have h4 : List.Forall₂ (fun (a : Str × DecCell) (b : Str × Str) => a ∈ mc.2 ∧
        (∃ u, printEstimate a.2.mean a.2.err s (lowClip (o.crapMin mc.1)) (highClip (o.crapMax mc.1)) o.nff
          = .ok u ∧ (∃ k, b.1 = u ++ List.replicate k ' ') ∧ b.1.length = unitsLen u + w) ∧ printPval a.2.pval o.nff = .ok b.2) mc.2 rows := by
      rw [List.forall₂_iff_get] at h3 ⊢
      exact ⟨h3.1, fun i h₁ h₂ => ⟨List.get_mem _ _, h3.2 i h₁ h₂⟩⟩
    refine h4.imp ?_
    rintro a b ⟨ha, ⟨u, hu, ⟨k, hk⟩, hw⟩, hp⟩
    exact ⟨a.2, u, k, hcells a ha, hu, hk, hw, hp⟩
  · have hnodup : (cols.map Prod.fst).Nodup := by rw [hfst]; exact (C20_metric_order _).1
    rw [C18_headers] at hheaders
    rw [List.forall₂_iff_get] at hheaders ⊢
    refine ⟨hheaders.1, fun i h₁ h₂ => ?_⟩
    have hi := hheaders.2 i h₁ h₂
    have hmem := List.get_mem _ ⟨i, h₁⟩
    obtain ⟨col, hcm, hel⟩ := List.mem_flatMap.mp hmem
    have hel' : col.1 = (List.get (cols.flatMap fun mc => [(mc.1, FmtStat.est), (mc.1, FmtStat.pval)]) ⟨i, h₁⟩).1 := by
      simp only [List.mem_cons, List.not_mem_nil, or_false] at hel
      rcases hel with h | h <;> rw [h]
    refine ⟨col, hcm, hel', ?_⟩
    have hfind : (cols.find? fun mc => decide (mc.1 = col.1)) = some col := by
      rw [List.find?_eq_some_iff_append]
      refine ⟨by simp, ?_⟩
      obtain ⟨as, bs, rfl⟩ := List.append_of_mem hcm
      refine ⟨as, bs, rfl, fun a ha => ?_⟩
      rw [List.map_append, List.nodup_append] at hnodup
      have := hnodup.2.2 a.1 (List.mem_map.mpr ⟨a, ha, rfl⟩) col.1 (by simp)
      simpa using this
    generalize List.get (cols.flatMap fun mc => [(mc.1, FmtStat.est), (mc.1, FmtStat.pval)]) ⟨i, h₁⟩ = el at hi hel' ⊢
    obtain ⟨metric, stat⟩ := el
    simp only [] at hel'
    subst hel'
    rw [← hi]
    unfold adjustHeader
    simp [hfind]

/-- C22, concrete: mean 2^-10 ± 2^-14, p = 2^-14, in seconds with modulus 3. -/
example : justFormatIt (fun l => l.insertionSort fun a b => |a| ≤ |b|) (fun _ => none)
    { shiftMod := some 3 } (fun _ => some "s".toList) true false
    ⟨["A".toList], ["run_time".toList], fun _ _ => ⟨.fin false 1 (-10), .fin false 1 (-14), .fin false 1 (-14)⟩⟩ =
    .ok ⟨["run time (us)".toList, "p".toList],
      [("run_time".toList, 6, [("977(62)".toList, "<0.0001".toList)])]⟩ := by
  decide +kernel

end Mlp.Props
