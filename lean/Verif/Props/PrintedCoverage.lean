import Verif.Props.RoundedCoverage
import Verif.Props.FormatPipeline

/-! # C136: the promises of `loss_summary_table` in the text that `just_format_it` prints -/

namespace Mlp.Props
open Mlp Mlp.Sciprint Mlp.Paper Mlp.PaperR Mlp.PerfR Mlp.BootR Mlp.Boot Mlp.Spec Mlp.Lemmas Mlp.Round MeasureTheory ProbabilityTheory
open scoped NNReal

/-! ## What a reader sees -/

/-- A text without its trailing blanks. -/
def stripBlanks (s : Str) : Str := (s.reverse.dropWhile fun c => c = ' ').reverse

/-- In the column of the metric, which is scaled by `10^s`, the row of the method reads `r`: mean, decimal places and, if shown, error bar. -/
def PrintedEst (st : StrTable Str) (methods : List Str) (metric method : Str) (s : Int) (r : ℚ × Nat × Option ℚ) : Prop :=
  ∃ col ∈ st.cols, col.1 = metric ∧ col.2.1 = s ∧ ∃ (j : ℕ) (row : Str × Str), methods[j]? = some method ∧
    col.2.2[j]? = some row ∧ readEst (stripBlanks row.1) = some r

/-- `just_format_it`, with some limits, units and options, turns the table `out` of `loss_summary_table` into a text in which the method reads `r` in
the column of the metric, which is scaled by `10^s`. -/
def Shows (tbl : LossTable) (out : List (List (Flt ℝ × Flt ℝ × Flt ℝ))) (metric method : Str) (s : Int) (r : ℚ × Nat × Option ℚ) : Prop :=
  ∃ sortAbs ebLimit o ud usePrefix useTex t st, SameTable t tbl out ∧
    justFormatIt sortAbs ebLimit o ud usePrefix useTex t = .ok st ∧ PrintedEst st tbl.methods metric method s r

/-! ## Characters of a readable estimate -/

theorem readDigitsFrom_chars {s : Str} {acc n : Nat} (h : readDigitsFrom acc s = some n) : ∀ c ∈ s, IsDigit c := by
  induction s generalizing acc with
  | nil => simp
  | cons x s ih =>
    simp only [readDigitsFrom, Option.bind_eq_some_iff] at h
    obtain ⟨d, hd, h⟩ := h
    intro c hc
    rcases List.mem_cons.1 hc with rfl | hc
    · unfold readDigit at hd
      split at hd
      · assumption
      · cases hd
    · exact ih h c hc

theorem readNat_chars {s : Str} {n : Nat} (h : readNat s = some n) : ∀ c ∈ s, IsDigit c := by
  unfold readNat at h
  split at h
  · cases h
  · exact readDigitsFrom_chars h

theorem splitAt_spec (c : Char) (s : Str) :
    (∀ a, Spec.splitAt c s = (a, none) → s = a) ∧ ∀ a b, Spec.splitAt c s = (a, some b) → s = a ++ c :: b := by
  induction s with
  | nil => exact ⟨fun a h => by simp [Spec.splitAt] at h; exact h.symm, fun a b h => by simp [Spec.splitAt] at h⟩
  | cons x s ih =>
    unfold Spec.splitAt
    split
    · rename_i hx
      subst hx
      refine ⟨fun a h => by simp at h, fun a b h => ?_⟩
      simp only [Prod.mk.injEq, Option.some.injEq] at h
      obtain ⟨rfl, rfl⟩ := h
      rfl
    · constructor
      · intro a h
        rw [Prod.mk.injEq] at h
        rw [← h.1]
        exact congrArg _ (ih.1 _ (Prod.ext rfl h.2))
      · intro a b h
        rw [Prod.mk.injEq] at h
        rw [← h.1, List.cons_append]
        exact congrArg _ (ih.2 _ b (Prod.ext rfl h.2))

/-- A character of a printed number. -/
def NumChar (c : Char) : Prop := IsDigit c ∨ c = '.' ∨ c = '-' ∨ c = ',' ∨ c = '(' ∨ c = ')'

theorem readUnsigned_chars {s : Str} {p : ℚ × Nat} (h : readUnsigned s = some p) : ∀ c ∈ s, NumChar c := by
  unfold readUnsigned at h
  intro c hc
  split at h
  · rename_i ip hs
    rw [(splitAt_spec _ _).1 _ hs] at hc
    simp only [Option.map_eq_some_iff] at h
    obtain ⟨n, hn, -⟩ := h
    exact .inl (readNat_chars hn c hc)
  · rename_i ip fp hs
    rw [(splitAt_spec _ _).2 _ _ hs] at hc
    simp only [Option.bind_eq_some_iff, Option.map_eq_some_iff] at h
    obtain ⟨n, hn, f, hf, -⟩ := h
    simp only [List.mem_append, List.mem_cons] at hc
    rcases hc with hc | rfl | hc
    · exact .inl (readNat_chars hn c hc)
    · exact .inr (.inl rfl)
    · exact .inl (readNat_chars hf c hc)

theorem readNum_chars {s : Str} {p : ℚ × Nat} (h : readNum s = some p) : ∀ c ∈ s, NumChar c := by
  unfold readNum at h
  intro c hc
  by_cases h' : c = ','
  · exact .inr (.inr (.inr (.inl h')))
  have hm : c ∈ s.filter fun c => c ≠ ',' := by simpa [h'] using hc
  split at h
  · rename_i s' hs
    rw [hs] at hm
    simp only [Option.map_eq_some_iff] at h
    obtain ⟨q, hq, -⟩ := h
    rcases List.mem_cons.1 hm with rfl | hm
    · exact .inr (.inr (.inl rfl))
    · exact readUnsigned_chars hq c hm
  · exact readUnsigned_chars h c hm

theorem readEst_chars {s : Str} {r : ℚ × Nat × Option ℚ} (h : readEst s = some r) : ∀ c ∈ s, NumChar c := by
  unfold readEst at h
  intro c hc
  split at h
  · rename_i m hs
    rw [(splitAt_spec _ _).1 _ hs] at hc
    simp only [Option.map_eq_some_iff] at h
    obtain ⟨p, hp, -⟩ := h
    exact readNum_chars hp c hc
  · rename_i m rest hs
    rw [(splitAt_spec _ _).2 _ _ hs] at hc
    split at h
    · rename_i e he
      rw [(splitAt_spec _ _).2 _ _ he] at hc
      simp only [Option.bind_eq_some_iff, Option.map_eq_some_iff] at h
      obtain ⟨p, hp, k, hk, -⟩ := h
      simp only [List.mem_append, List.mem_cons, List.not_mem_nil, or_false] at hc
      rcases hc with hc | rfl | hc | rfl
      · exact readNum_chars hp c hc
      · exact .inr (.inr (.inr (.inr (.inl rfl))))
      · exact .inl (readNat_chars hk c hc)
      · exact .inr (.inr (.inr (.inr (.inr rfl))))
    · cases h

theorem not_numChar {c : Char} (h : c = ' ' ∨ c = '>' ∨ c = '<') : ¬ NumChar c := by
  rcases h with rfl | rfl | rfl <;> (unfold NumChar IsDigit; decide)

theorem stripBlanks_append {s : Str} (h : ' ' ∉ s) (k : ℕ) : stripBlanks (s ++ List.replicate k ' ') = s := by
  unfold stripBlanks
  rw [List.reverse_append, List.reverse_replicate, List.dropWhile_append_of_pos (by simp), List.reverse_eq_iff]
  cases hr : s.reverse with
  | nil => rfl
  | cons x l =>
    rw [List.dropWhile_cons_of_neg]
    have : x ∈ s := by rw [← List.mem_reverse, hr]; exact List.mem_cons_self
    simp only [decide_eq_true_eq]
    rintro rfl
    exact h this

theorem mem_stripBlanks_cons {c : Char} (h : c ≠ ' ') (s : Str) : c ∈ stripBlanks (c :: s) := by
  unfold stripBlanks
  rw [List.mem_reverse, List.reverse_cons, List.dropWhile_append]
  split
  · simp [h]
  · simp

/-! ## Five digits -/

theorem roundsHalfUp_neg {d : Nat} {x y : ℚ} (h : RoundsHalfUp d x y) : RoundsHalfUp d (-x) (-y) := by
  have hg : ∀ z, SigGrid d z → SigGrid d (-z) := by
    rintro z ⟨n, c, e, hc, rfl⟩
    exact ⟨!n, c, e, hc, by cases n <;> simp [sval]⟩
  refine ⟨hg y h.1, fun z hz => ?_⟩
  have := h.2 (-z) (hg z hz)
  rw [show -y - -x = -(y - x) by ring, show z - -x = -(-z - x) by ring, abs_neg, abs_neg, abs_neg y, ← abs_neg z]
  exact this

theorem halfUp_five_pos {x y : ℚ} (hx : 0 < x) (h : RoundsHalfUp 5 x y) : |y - x| ≤ |y| / 20000 := by
  obtain ⟨k, hk⟩ := exists_mem_Ico_zpow hx (by norm_num : (1 : ℚ) < 10)
  have hu : (0 : ℚ) < 10 ^ (k - 4) := by positivity
  have e1 : (10 : ℚ) ^ k = 10000 * 10 ^ (k - 4) := by
    rw [zpow_sub₀ (by norm_num)]; norm_num; ring
  have e2 : (10 : ℚ) ^ (k + 1) = 100000 * 10 ^ (k - 4) := by
    rw [zpow_add_one₀ (by norm_num), e1]; ring
  have hy : 10 ^ k ≤ y := by
    by_contra hcon
    push Not at hcon
    have hg : SigGrid 5 ((10 : ℚ) ^ k) := ⟨false, 1, k, by norm_num, by simp [sval]⟩
    have := (h.2 _ hg).1
    rw [abs_of_nonpos (by linarith [hk.1]), abs_of_nonpos (by linarith [hk.1])] at this
    linarith
  obtain ⟨z, hz, hzx⟩ : ∃ z, SigGrid 5 z ∧ |z - x| ≤ 10 ^ (k - 4) / 2 := by
    set w := x / 10 ^ (k - 4) with hw
    have hxw : x = w * 10 ^ (k - 4) := by rw [hw]; field_simp
    have hw0 : 0 ≤ w := by positivity
    have hw5 : w < 100000 := by rw [hw, div_lt_iff₀ hu, ← e2]; exact hk.2
    have f1 := Nat.floor_le (a := w + 1 / 2) (by linarith)
    have f2 := Nat.lt_floor_add_one (w + 1 / 2)
    generalize ⌊w + 1 / 2⌋₊ = c0 at f1 f2
    have hc : c0 ≤ 100000 := by
      have : (c0 : ℚ) < 100001 := by linarith
      exact_mod_cast Nat.lt_succ_iff.1 (by exact_mod_cast this)
    have hab : |(c0 : ℚ) * 10 ^ (k - 4) - x| ≤ 10 ^ (k - 4) / 2 := by
      have : |(c0 : ℚ) - w| ≤ 1 / 2 := abs_le.2 ⟨by linarith, by linarith⟩
      rw [hxw, ← sub_mul, abs_mul, abs_of_pos hu]
      linarith [mul_le_mul_of_nonneg_right this hu.le]
    rcases Nat.lt_or_ge c0 100000 with h5 | h5
    · exact ⟨_, ⟨false, _, k - 4, by norm_num; exact h5, by simp [sval]⟩, hab⟩
    · have : c0 = 100000 := by omega
      refine ⟨_, ⟨false, 1, k + 1, by norm_num, rfl⟩, ?_⟩
      rw [this] at hab
      simp only [sval, Bool.false_eq_true, if_false, Nat.cast_one, one_mul]
      rw [e2]
      exact_mod_cast hab
  have := (h.2 z hz).1
  have hy' : y ≤ |y| := le_abs_self y
  linarith

/-- Rounding half-up to five significant digits errs by at most one part in 20000. -/
theorem halfUp_five {x y : ℚ} (h : RoundsHalfUp 5 x y) : |y - x| ≤ |y| / 20000 := by
  rcases lt_trichotomy x 0 with hx | rfl | hx
  · have := halfUp_five_pos (neg_pos.2 hx) (roundsHalfUp_neg h)
    rwa [show -y - -x = -(y - x) by ring, abs_neg, abs_neg] at this
  · have := (h.2 0 ⟨false, 0, 0, by norm_num, by simp [sval]⟩).1
    simp only [sub_zero, abs_zero] at this
    have hy : y = 0 := abs_nonpos_iff.1 this
    simp [hy]
  · exact halfUp_five_pos hx h

/-! ## One printed cell -/

theorem sameNumber_fin {x : PyFloat} {v : ℝ} (h : SameNumber x (.fin v)) : ∃ n m e, x = .fin n m e ∧ ((fval n m e : ℚ) : ℝ) = v := by
  cases x with
  | nan => exact h.elim
  | inf b => cases b <;> exact h.elim
  | fin n m e => exact ⟨n, m, e, rfl, h⟩

theorem sameTable_cell {t : Table Str FpCell} {tbl : LossTable} {out : List (List (Flt ℝ × Flt ℝ × Flt ℝ))} (h : SameTable t tbl out)
    {metric method : Str} {cell : Flt ℝ × Flt ℝ × Flt ℝ} (hc : SummaryCell tbl out metric method cell) :
    SameNumber (t.cell method metric).mean cell.1 ∧ SameNumber (t.cell method metric).err cell.2.1 ∧
      SameNumber (t.cell method metric).pval cell.2.2 := by
  obtain ⟨i, j, row, h1, h2, h3, h4⟩ := hc
  exact forall₂_getElem? (forall₂_getElem? h.2.2 h1 h3) h2 h4

section
variable {sortAbs : List Int → List Int} {ebLimit : Str → Option Int} {o : FormatOpts Str} {ud : Str → Option Str}
  {usePrefix useTex : Bool} {t : Table Str FpCell} {st : StrTable Str} {tbl : LossTable}
  {out : List (List (Flt ℝ × Flt ℝ × Flt ℝ))} {metric method : Str} {cell : Flt ℝ × Flt ℝ × Flt ℝ}

/-- **C136, one cell.**  What the reader of the text of a finite cell can conclude: a positive error bar that is shown is at least the
computed one and the mean is off by at most half a unit of the last place; an error bar of zero or no error bar comes with a mean of five
significant digits. -/
theorem C136_cell (ht : SameTable t tbl out) (hst : justFormatIt sortAbs ebLimit o ud usePrefix useTex t = .ok st)
    (hc : SummaryCell tbl out metric method cell) {mu e : ℝ} (hmu : cell.1 = .fin mu) (he : cell.2.1 = .fin e)
    {s : Int} {v : ℚ} {places : Nat} {ev : Option ℚ} (hp : PrintedEst st tbl.methods metric method s (v, places, ev)) :
    (∀ E, ev = some E → 0 < E → |v / 10 ^ s - mu| ≤ 10 ^ (-(places : Int)) / 2 / 10 ^ s ∧ 0 < e ∧ e ≤ E / 10 ^ s ∧
      E / 10 ^ s < e + 10 ^ (-(places : Int)) / 10 ^ s) ∧
    ((ev = none ∨ ev = some 0) → |v / 10 ^ s - mu| ≤ |(v : ℝ) / 10 ^ s| / 20000) ∧
    (ev = some 0 → e = 0) ∧
    (ev = none → ∃ k, ebLimit metric = some k ∧ (10 : ℝ) ^ k < e) ∧
    ∀ E, ev = some E → 0 ≤ E := by
  obtain ⟨col, hcol, rfl, rfl, j, row, hj, hrow, hread⟩ := hp
  obtain ⟨-, hcells, -⟩ := C22_table _ _ _ _ _ _ _ _ hst
  obtain ⟨w, hw⟩ := hcells col hcol
  rw [ht.1] at hw
  obtain ⟨r, est, k, hr, hest, hpad, -, -⟩ := forall₂_getElem? hw hj hrow
  obtain ⟨s1, s2, -⟩ := sameTable_cell ht hc
  rw [hmu] at s1
  rw [he] at s2
  obtain ⟨n, m, ex, hx, rfl⟩ := sameNumber_fin s1
  obtain ⟨a, b, c, hxe, rfl⟩ := sameNumber_fin s2
  have h0 : 0 ≤ fval a b c := by
    by_contra hneg
    push Not at hneg
    rw [C10_negative_error_rejected _ _ _ (by norm_num) (.inr ⟨a, b, c, hxe, hneg⟩)] at hr
    cases hr
  have hs : (0 : ℚ) < 10 ^ col.2.1 := by positivity
  have five : ∀ y : ℚ, RoundsHalfUp 5 (fval n m ex) y → v = shifted y col.2.1 →
      |(v : ℝ) / 10 ^ col.2.1 - (fval n m ex : ℚ)| ≤ |(v : ℝ) / 10 ^ col.2.1| / 20000 := by
    intro y hy hv
    have e1 : v / 10 ^ col.2.1 = y := by rw [hv, shifted]; field_simp
    have h5 := halfUp_five hy
    rw [← e1] at h5
    have h5 := (Rat.cast_le (K := ℝ)).2 h5
    push_cast at h5
    exact h5
  rcases C22_cell _ _ _ hr n m ex hx col.2.1 _ _ _ _ hest with ⟨k', u, -, hu, -⟩ | ⟨k', u, -, hu, -⟩ | ⟨v', places', ev', hv', p1, p2, p3⟩
  · exfalso
    rw [hpad, hu, List.cons_append] at hread
    exact not_numChar (.inr (.inl rfl)) (readEst_chars hread _ (mem_stripBlanks_cons (by decide) _))
  · exfalso
    rw [hpad, hu, List.cons_append] at hread
    exact not_numChar (.inr (.inr rfl)) (readEst_chars hread _ (mem_stripBlanks_cons (by decide) _))
  · have hnb : ' ' ∉ est := fun h => not_numChar (.inl rfl) (readEst_chars hv' _ h)
    rw [hpad, stripBlanks_append hnb, hv'] at hread
    simp only [Option.some.injEq, Prod.mk.injEq] at hread
    obtain ⟨rfl, rfl, rfl⟩ := hread
    rcases h0.lt_or_eq with hpos | hzero
    · by_cases hlim : ∀ k, ebLimit col.1 = some k → fval a b c ≤ 10 ^ k
      · obtain ⟨q1, E, rfl, q2, q3, -⟩ := p1 a b c hxe hpos hlim
        have hE : 0 < E := lt_of_lt_of_le (mul_pos hpos hs) q2
        refine ⟨fun E' hE' _ => ?_, ?_, ?_, ?_, ?_⟩
        · simp only [Option.some.injEq] at hE'
          subst hE'
          refine ⟨?_, by exact_mod_cast hpos, ?_, ?_⟩
          · have : |v' / 10 ^ col.2.1 - fval n m ex| ≤ 10 ^ (-(places' : Int)) / 2 / 10 ^ col.2.1 := by
              rw [le_div_iff₀ hs, ← abs_of_pos hs, ← abs_mul, sub_mul, abs_of_pos hs, div_mul_cancel₀ _ hs.ne']
              exact q1
            have := (Rat.cast_le (K := ℝ)).2 this
            push_cast at this
            exact this
          · have : fval a b c ≤ E / 10 ^ col.2.1 := by rw [le_div_iff₀ hs]; exact q2
            have := (Rat.cast_le (K := ℝ)).2 this
            push_cast at this
            exact this
          · have : E / 10 ^ col.2.1 < fval a b c + 10 ^ (-(places' : Int)) / 10 ^ col.2.1 := by
              rw [← sub_lt_iff_lt_add', ← sub_pos]
              have : (0 : ℚ) < (shifted (fval a b c) col.2.1 + 10 ^ (-(places' : Int)) - E) / 10 ^ col.2.1 := div_pos (by linarith) hs
              rw [sub_div, add_div, shifted, mul_div_cancel_right₀ _ hs.ne'] at this
              linarith
            have := (Rat.cast_lt (K := ℝ)).2 this
            push_cast at this
            exact this
        · rintro (h | h)
          · cases h
          · simp only [Option.some.injEq] at h
            exact absurd h hE.ne'
        · intro h
          simp only [Option.some.injEq] at h
          exact absurd h hE.ne'
        · intro h; cases h
        · intro E' h
          simp only [Option.some.injEq] at h
          exact h ▸ hE.le
      · push Not at hlim
        obtain ⟨k', hk', hgt⟩ := hlim
        obtain ⟨rfl, y, hy, hv⟩ := p3 (.inr (.inr ⟨k', a, b, c, hk', hxe, hgt⟩))
        refine ⟨fun E h => (by cases h), fun _ => five y hy hv, fun h => (by cases h), fun _ => ⟨k', hk', ?_⟩, fun E h => (by cases h)⟩
        have := (Rat.cast_lt (K := ℝ)).2 hgt
        push_cast at this
        exact this
    · obtain ⟨rfl, y, hy, hv⟩ := p2 a b c hxe hzero.symm
      refine ⟨fun E h hE => ?_, fun _ => five y hy hv, fun _ => by exact_mod_cast hzero.symm, fun h => (by cases h), fun E h => ?_⟩
      · simp only [Option.some.injEq] at h
        exact absurd h hE.ne
      · simp only [Option.some.injEq] at h
        exact h.le

/-- **C136, one cell without an error bar.**  A cell with an undefined error bar, as that of the reference with `pairwise_CI`, is shown without
error bar and with a mean of five significant digits. -/
theorem C136_cell_nan (ht : SameTable t tbl out) (hst : justFormatIt sortAbs ebLimit o ud usePrefix useTex t = .ok st)
    (hc : SummaryCell tbl out metric method cell) {mu : ℝ} (hmu : cell.1 = .fin mu) (he : cell.2.1 = .nan)
    {s : Int} {v : ℚ} {places : Nat} {ev : Option ℚ} (hp : PrintedEst st tbl.methods metric method s (v, places, ev)) :
    ev = none ∧ |v / 10 ^ s - mu| ≤ |(v : ℝ) / 10 ^ s| / 20000 := by
  obtain ⟨col, hcol, rfl, rfl, j, row, hj, hrow, hread⟩ := hp
  obtain ⟨-, hcells, -⟩ := C22_table _ _ _ _ _ _ _ _ hst
  obtain ⟨w, hw⟩ := hcells col hcol
  rw [ht.1] at hw
  obtain ⟨r, est, k, hr, hest, hpad, -, -⟩ := forall₂_getElem? hw hj hrow
  obtain ⟨s1, s2, -⟩ := sameTable_cell ht hc
  rw [hmu] at s1
  rw [he] at s2
  obtain ⟨n, m, ex, hx, rfl⟩ := sameNumber_fin s1
  have hxe : (t.cell method col.1).err = .nan := by
    cases hh : (t.cell method col.1).err with
    | nan => rfl
    | inf b => rw [hh] at s2; cases b <;> exact s2.elim
    | fin a b c => rw [hh] at s2; exact s2.elim
  have hs : (0 : ℚ) < 10 ^ col.2.1 := by positivity
  rcases C22_cell _ _ _ hr n m ex hx col.2.1 _ _ _ _ hest with ⟨k', u, -, hu, -⟩ | ⟨k', u, -, hu, -⟩ | ⟨v', places', ev', hv', -, -, p3⟩
  · exfalso
    rw [hpad, hu, List.cons_append] at hread
    exact not_numChar (.inr (.inl rfl)) (readEst_chars hread _ (mem_stripBlanks_cons (by decide) _))
  · exfalso
    rw [hpad, hu, List.cons_append] at hread
    exact not_numChar (.inr (.inr rfl)) (readEst_chars hread _ (mem_stripBlanks_cons (by decide) _))
  · have hnb : ' ' ∉ est := fun h => not_numChar (.inl rfl) (readEst_chars hv' _ h)
    rw [hpad, stripBlanks_append hnb, hv'] at hread
    simp only [Option.some.injEq, Prod.mk.injEq] at hread
    obtain ⟨rfl, rfl, rfl⟩ := hread
    obtain ⟨rfl, y, hy, hv⟩ := p3 (.inl hxe)
    refine ⟨rfl, ?_⟩
    have e1 : v' / 10 ^ col.2.1 = y := by rw [hv, shifted]; field_simp
    have h5 := halfUp_five hy
    rw [← e1] at h5
    have h5 := (Rat.cast_le (K := ℝ)).2 h5
    push_cast at h5
    exact h5

/-- **C136, the cell is shown.**  A cell with a finite mean within the limits of the metric is shown; a finite error bar within its own
limit is shown, too. -/
theorem C136_shown (ht : SameTable t tbl out) (hst : justFormatIt sortAbs ebLimit o ud usePrefix useTex t = .ok st)
    (hc : SummaryCell tbl out metric method cell) {mu : ℝ} (hmu : cell.1 = .fin mu)
    (hmax : ∀ k, o.crapMax metric = some k → mu ≤ (10 : ℝ) ^ k) (hmin : ∀ k, o.crapMin metric = some k → -(10 : ℝ) ^ k ≤ mu) :
    ∃ s v places ev, PrintedEst st tbl.methods metric method s (v, places, ev) ∧
      (∀ e : ℝ, cell.2.1 = .fin e → (∀ k, ebLimit metric = some k → e ≤ (10 : ℝ) ^ k) → ∃ E, ev = some E) := by
  obtain ⟨hcols, hcells, -⟩ := C22_table _ _ _ _ _ _ _ _ hst
  obtain ⟨i, j, row', h1, h2, h3, h4⟩ := id hc
  have hmem : metric ∈ st.cols.map Prod.fst := by
    rw [hcols]
    have : metric ∈ t.metrics := by rw [ht.2.1]; exact List.mem_of_getElem? h1
    simpa [levels] using this
  obtain ⟨col, hcol, rfl⟩ := List.mem_map.1 hmem
  obtain ⟨w, hw⟩ := hcells col hcol
  rw [ht.1] at hw
  obtain ⟨row, hrow⟩ : ∃ row, col.2.2[j]? = some row := by
    have hl := (List.getElem?_eq_some_iff.1 h2).1
    rw [hw.length_eq] at hl
    exact ⟨_, List.getElem?_eq_getElem hl⟩
  obtain ⟨r, est, k, hr, hest, hpad, -, -⟩ := forall₂_getElem? hw h2 hrow
  obtain ⟨s1, s2, -⟩ := sameTable_cell ht hc
  rw [hmu] at s1
  obtain ⟨n, m, ex, hx, rfl⟩ := sameNumber_fin s1
  rcases C22_cell _ _ _ hr n m ex hx col.2.1 _ _ _ _ hest with ⟨k', u, hk, -, -, hgt⟩ | ⟨k', u, hk, -, -, hlt⟩ | ⟨v', places', ev', hv', p1, p2, p3⟩
  · have := hmax k' hk
    have hgt' := (Rat.cast_lt (K := ℝ)).2 hgt
    push_cast at hgt'
    linarith
  · have := hmin k' hk
    have hlt' := (Rat.cast_lt (K := ℝ)).2 hlt
    push_cast at hlt'
    linarith
  · have hnb : ' ' ∉ est := fun h => not_numChar (.inl rfl) (readEst_chars hv' _ h)
    refine ⟨col.2.1, v', places', ev', ⟨col, hcol, rfl, rfl, j, row, h2, hrow, by rw [hpad, stripBlanks_append hnb, hv']⟩, fun e he hlim => ?_⟩
    rw [he] at s2
    obtain ⟨a, b, c, hxe, rfl⟩ := sameNumber_fin s2
    have h0 : 0 ≤ fval a b c := by
      by_contra hneg
      push Not at hneg
      rw [C10_negative_error_rejected _ _ _ (by norm_num) (.inr ⟨a, b, c, hxe, hneg⟩)] at hr
      cases hr
    rcases h0.lt_or_eq with hpos | hzero
    · obtain ⟨-, E, hE, -⟩ := p1 a b c hxe hpos fun k hk => by
        have := hlim k hk
        rw [← Rat.cast_le (K := ℝ)]
        push_cast
        exact this
      exact ⟨E, hE⟩
    · exact ⟨0, (p2 a b c hxe hzero.symm).1⟩

end

/-- With `pairwise_CI` the reference has no error bar. -/
theorem reference_bar {L : Lib ℝ} {tbl : LossTable} {refMethod : Str} {confidence : Flt ℝ} {methodEB : EBMethod}
    {limits : List (Str × (Flt ℝ × Flt ℝ))} {draws : Str → Str → Draws}
    {out : List (List (Flt ℝ × Flt ℝ × Flt ℝ))}
    (ho : lossSummaryTableR L tbl refMethod true confidence methodEB limits draws = .ok out)
    {metric : Str} {cell : Flt ℝ × Flt ℝ × Flt ℝ} (hc : SummaryCell tbl out metric refMethod cell) : cell.2.1 = .nan := by
  obtain ⟨i, j, row, h1, h2, h3, h4⟩ := hc
  obtain ⟨-, -, -, h⟩ := summaryR_ok.1 ho
  obtain ⟨lo, hi, lr, k1, -, k2, -, -, h⟩ := forall₂_getElem? h h1 h3
  obtain ⟨loss, k3, h⟩ := forall₂_getElem? h h2 h4
  unfold cellOfR at h
  simp only [assert_bind_ok, decide_true, if_true] at h
  obtain ⟨-, -, h⟩ := h
  cases h
  rfl

/-! ## The promises -/

variable {L : Lib ℝ} {u : ℝ} {Ω : Type} [MeasurableSpace Ω] {P : Measure Ω} [IsProbabilityMeasure P]

section
variable {n : ℕ} {tbl : Ω → LossTable} {metric method refMethod : Str} {limits : List (Str × (Flt ℝ × Flt ℝ))}
  {l h : ℝ} {X Y : Fin n → Ω → ℝ} {mX mY : ℝ}

/-- **C136, error bars.**  Losses summarised in floating point without `pairwise_CI` and printed by `just_format_it`: with probability at
least the confidence, in every text that shows an error bar, whatever the options of `just_format_it`, the true expected loss is within the
printed error bar plus half a unit of the last place of the printed mean, up to rounding errors in the computation. -/
theorem C136_error_bar (hL : GoodLib L) (hA : AccurateLib u L) (hr : RandomLosses P tbl metric method refMethod limits l h X Y mX mY)
    (hn : n * u ≤ 1 / 1000000) {c : ℝ} (h0 : 0 < c) (h1 : c < 1) {draws : Ω → Str → Str → Draws}
    {out : Ω → List (List (Flt ℝ × Flt ℝ × Flt ℝ))}
    (ho : ∀ ω, lossSummaryTableR L (tbl ω) refMethod false (.fin c) .bernstein limits (draws ω) = .ok (out ω))
    {cell : Ω → Flt ℝ × Flt ℝ × Flt ℝ} (hc : ∀ ω, SummaryCell (tbl ω) (out ω) metric method (cell ω)) :
    Likely P c {ω | ∀ (s : Int) (v : ℚ) (places : Nat) (E : ℚ),
      Shows (tbl ω) (out ω) metric method s (v, places, some E) → 0 < E →
      |v / 10 ^ s - mX| ≤ (E + 10 ^ (-(places : Int)) / 2) / 10 ^ s +
        132 * (n * u) * (Real.log (3 / (1 - c)) * max |l| |h|)} := by
  refine (C135_error_bar hL hA hr hn h0 h1 ho hc).mono ?_
  rintro ω ⟨mu, e, hmu, he, hcov⟩ s v places E ⟨_, _, _, _, _, _, t, st, ht, hst, hp⟩ hE
  obtain ⟨k1, -, k2, -⟩ := (C136_cell ht hst (hc ω) hmu he hp).1 E rfl hE
  rw [add_div]
  have := abs_sub_le ((v : ℝ) / 10 ^ s) mu mX
  linarith

/-- **C136, pairwise error bars.**  With `pairwise_CI`: with probability at least the confidence, in every text that shows the two methods,
the true difference in expected loss is within the printed error bar of the difference of the printed means, plus half a unit of the last
place of the mean and one part in 20000 of the mean of the reference, up to rounding errors in the computation. -/
theorem C136_pairwise (hL : GoodLib L) (hA : AccurateLib u L) (hr : RandomLosses P tbl metric method refMethod limits l h X Y mX mY)
    (hmr : method ≠ refMethod) (hn : n * u ≤ 1 / 1000000) {c : ℝ} (h0 : 0 < c) (h1 : c < 1) {draws : Ω → Str → Str → Draws}
    {out : Ω → List (List (Flt ℝ × Flt ℝ × Flt ℝ))}
    (ho : ∀ ω, lossSummaryTableR L (tbl ω) refMethod true (.fin c) .bernstein limits (draws ω) = .ok (out ω))
    {cell cellRef : Ω → Flt ℝ × Flt ℝ × Flt ℝ} (hc : ∀ ω, SummaryCell (tbl ω) (out ω) metric method (cell ω))
    (hcr : ∀ ω, SummaryCell (tbl ω) (out ω) metric refMethod (cellRef ω)) :
    Likely P c {ω | ∀ (s s' : Int) (v v' : ℚ) (places places' : Nat) (E : ℚ) (ev' : Option ℚ),
      Shows (tbl ω) (out ω) metric method s (v, places, some E) → 0 < E →
      Shows (tbl ω) (out ω) metric refMethod s' (v', places', ev') →
      ev' = none ∧ |(v / 10 ^ s - v' / 10 ^ s') - (mX - mY)| ≤ (E + 10 ^ (-(places : Int)) / 2) / 10 ^ s + |(v' : ℝ) / 10 ^ s'| / 20000 +
        (4 * (n * u) * max |l| |h| + 138 * (n * u) * (Real.log (3 / (1 - c)) * (h - l)))} := by
  refine (C135_pairwise hL hA hr hmr hn h0 h1 ho hc hcr).mono ?_
  rintro ω ⟨mu, muRef, e, hmu, hmuR, he, hcov⟩ s s' v v' places places' E ev' ⟨_, _, _, _, _, _, t, st, ht, hst, hp⟩ hE
    ⟨_, _, _, _, _, _, t', st', ht', hst', hp'⟩
  obtain ⟨k1, -, k2, -⟩ := (C136_cell ht hst (hc ω) hmu he hp).1 E rfl hE
  obtain ⟨hev, m2⟩ := C136_cell_nan ht' hst' (hcr ω) hmuR (reference_bar (ho ω) (hcr ω)) hp'
  refine ⟨hev, ?_⟩
  rw [add_div]
  have a1 := abs_le.1 k1
  have a2 := abs_le.1 m2
  have a3 := abs_le.1 hcov
  rw [abs_le]
  constructor <;> linarith [a1.1, a1.2, a2.1, a2.2, a3.1, a3.2]

/-- **C136, t for normal losses.**  As `C135_t`, for the printed text. -/
theorem C136_t (hL : GoodLib L) (hA : AccurateLib u L) (hn2 : 2 ≤ n) (hlim : LimitsOf limits metric .ninf .pinf)
    (hX : ∀ ω, HasLoss (tbl ω) metric method (finVec ((observed X ω).map L.rnd)))
    (hY : ∀ ω, HasLoss (tbl ω) metric refMethod (finVec (observed Y ω)))
    {v : ℝ≥0} (h : NormalSample P X mX v) (hn : n * u ≤ 1 / 1000000) {c : ℝ} (h0 : 0 < c) (h1 : c < 1)
    {q : ℝ} (hq : q = (studentT (n - 1)).ppf ((1 + c) / 2)) (hqa : AccurateQuantile u L n c q)
    {draws : Ω → Str → Str → Draws} {out : Ω → List (List (Flt ℝ × Flt ℝ × Flt ℝ))}
    (ho : ∀ ω, lossSummaryTableR L (tbl ω) refMethod false (.fin c) .t limits (draws ω) = .ok (out ω))
    {cell : Ω → Flt ℝ × Flt ℝ × Flt ℝ} (hc : ∀ ω, SummaryCell (tbl ω) (out ω) metric method (cell ω)) :
    Likely P c {ω | ∀ (s : Int) (v : ℚ) (places : Nat) (E : ℚ),
      Shows (tbl ω) (out ω) metric method s (v, places, some E) → 0 < E →
      |v / 10 ^ s - mX| ≤ (E + 10 ^ (-(places : Int)) / 2) / 10 ^ s + (3 * (n * u) * avgAbs (observed X ω) +
        q * (n * u) * (15 * stdErr (observed X ω) + 7 * (avgAbs (observed X ω) / Real.sqrt n)))} := by
  refine (C135_t hL hA hn2 hlim hX hY h hn h0 h1 hq hqa ho hc).mono ?_
  rintro ω ⟨mu, e, hmu, he, hcov⟩ s v places E ⟨_, _, _, _, _, _, t, st, ht, hst, hp⟩ hE
  obtain ⟨k1, -, k2, -⟩ := (C136_cell ht hst (hc ω) hmu he hp).1 E rfl hE
  rw [add_div]
  have := abs_sub_le ((v : ℝ) / 10 ^ s) mu mX
  linarith

end

end Mlp.Props
