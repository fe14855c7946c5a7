import Verif.Lemmas.Print
import Verif.Props.Decimalize
import Mathlib.Data.Nat.Prime.Basic
import Mathlib.Tactic.NormNum.Prime

/-!
# Properties C01, C02, C03, C08, C11, C12, C24: printing decimals

`readEst`, `readNum`, `NumShape`, `EstShape` are the reader and shape specifications of
`Verif/Spec/Reader.lean`; `shifted v s` is `v * 10^s`.
-/

namespace Mlp.Props
open Mlp Spec Sciprint

/-- Every decimal is either clipped above, clipped below, NaN, or in range. -/
theorem clip_cases (mu a b : Dec) (h : ValidClips a b) :
    DLt b mu ∨ DLt mu a ∨ mu = .nan ∨ (DLe mu b ∧ DLe a mu) := by
  by_cases hn : mu = .nan
  · right; right; left; exact hn
  · have hn' : mu.isNan = false := by cases mu <;> simp_all [Dec.isNan]
    rw [dlt_iff_not_dle b mu h.notNan.2 hn', dlt_iff_not_dle mu a hn' h.notNan.1]
    tauto

/-! ## C03 -/

/-- **C03** The outcome of `print_estimate` for all means, errors, shifts, clips and mappings:
clipping first, then the non-finite names, then the precision check, then the error check. -/
theorem C03_outcome (mu EB : Dec) (shift : Int) (a b : Dec) (nff : NonFiniteFmt) :
    (¬ ValidClips a b → printEstimate mu EB shift a b nff = .error .assertion) ∧
    (ValidClips a b → DLt b mu →
      printEstimate mu EB shift a b nff = .ok ('>' :: genFmt (Dec.scaleb shift b))) ∧
    (ValidClips a b → DLt mu a →
      printEstimate mu EB shift a b nff = .ok ('<' :: genFmt (Dec.scaleb shift a))) ∧
    (ValidClips a b → mu = .nan →
      printEstimate mu EB shift a b nff = .ok ((nff "nan".toList).getD "nan".toList)) ∧
    (ValidClips a b → DLe mu b → DLe a mu →
      (mu = .inf false → printEstimate mu EB shift a b nff =
        .ok ((nff "inf".toList).getD "inf".toList)) ∧
      (mu = .inf true → printEstimate mu EB shift a b nff =
        .ok ((nff "-inf".toList).getD "-inf".toList)) ∧
      (∀ n c e, mu = .fin n c e → c < 10 ^ 28 → 0 < e + shift →
        printEstimate mu EB shift a b nff = .error .valueError) ∧
      (∀ n c e, mu = .fin n c e → c < 10 ^ 28 → e + shift ≤ 0 → ErrFits e EB →
        printEstimate mu EB shift a b nff = .ok (joinEst (genFmt (.fin n c (e + shift))) EB)) ∧
      (∀ n c e, mu = .fin n c e → c < 10 ^ 28 → e + shift ≤ 0 → ¬ ErrFits e EB →
        printEstimate mu EB shift a b nff = .error .assertion)) := by
  refine ⟨printEstimate_invalid mu EB shift a b nff, printEstimate_above mu EB shift a b nff,
    printEstimate_below mu EB shift a b nff, ?_, fun h hb ha => ⟨?_, ?_, ?_, ?_, ?_⟩⟩
  · rintro h rfl; exact printEstimate_nan EB shift a b nff h
  · rintro rfl; exact printEstimate_inf EB shift a b nff false h hb ha
  · rintro rfl; exact printEstimate_inf EB shift a b nff true h hb ha
  · rintro n c e rfl hc
    exact (printEstimate_fin n c e EB shift a b nff h hb ha n c (e + shift)
      (scaleb_exact shift n c e hc)).1
  · rintro n c e rfl hc
    exact (printEstimate_fin n c e EB shift a b nff h hb ha n c (e + shift)
      (scaleb_exact shift n c e hc)).2.1
  · rintro n c e rfl hc
    exact (printEstimate_fin n c e EB shift a b nff h hb ha n c (e + shift)
      (scaleb_exact shift n c e hc)).2.2

/-- **C03** A clipped value is printed as `>` or `<` and a number that reads back to exactly the
clip limit in the shifted scale; it has no error bar. -/
theorem C03_clipped_reads_back (mu EB : Dec) (shift : Int) (a b : Dec) (nff : NonFiniteFmt)
    (h : ValidClips a b) :
    (∀ n c e, b = .fin n c e → c < 10 ^ 28 → DLt b mu →
      ∃ s, printEstimate mu EB shift a b nff = .ok ('>' :: s) ∧
        readEst s = some (shifted (sval n c e) shift, (-(e + shift)).toNat, none)) ∧
    (∀ n c e, a = .fin n c e → c < 10 ^ 28 → DLt mu a →
      ∃ s, printEstimate mu EB shift a b nff = .ok ('<' :: s) ∧
        readEst s = some (shifted (sval n c e) shift, (-(e + shift)).toNat, none)) := by
  constructor
  · rintro n c e rfl hc hlt
    refine ⟨_, printEstimate_above mu EB shift a _ nff h hlt, ?_⟩
    rw [scaleb_exact shift n c e hc, readEst_plain, sval_shift]
  · rintro n c e rfl hc hlt
    refine ⟨_, printEstimate_below mu EB shift _ b nff h hlt, ?_⟩
    rw [scaleb_exact shift n c e hc, readEst_plain, sval_shift]

/-- **C03** ValueError is raised exactly when the unclipped finite mean has no units digit after
the shift, also for more than 28 digits: then the shifted value is first rounded to 28 digits. -/
theorem C03_value_error_iff (mu EB : Dec) (shift : Int) (a b : Dec) (nff : NonFiniteFmt) :
    printEstimate mu EB shift a b nff = .error .valueError ↔
      ValidClips a b ∧ DLe mu b ∧ DLe a mu ∧
        ∃ n c e, Dec.scaleb shift mu = .fin n c e ∧ 0 < e := by
  by_cases h : ValidClips a b
  · rcases clip_cases mu a b h with h1 | h1 | rfl | ⟨hb, ha⟩
    · rw [printEstimate_above mu EB shift a b nff h h1]
      have hn : mu.isNan = false := by cases mu <;> cases b <;> simp_all [DLt, Dec.isNan]
      have := (dlt_iff_not_dle b mu h.notNan.2 hn).mp h1
      simp [this]
    · rw [printEstimate_below mu EB shift a b nff h h1]
      have hn : mu.isNan = false := by cases mu <;> cases a <;> simp_all [DLt, Dec.isNan]
      have := (dlt_iff_not_dle mu a hn h.notNan.1).mp h1
      simp [this]
    · rw [printEstimate_nan EB shift a b nff h]
      simp [DLe]
    · cases mu with
      | nan => simp [DLe] at hb
      | inf n =>
        rw [printEstimate_inf EB shift a b nff n h hb ha]
        simp [Dec.scaleb]
      | fin n c e =>
        obtain ⟨c', e', hs⟩ := scaleb_fin shift n c e
        obtain ⟨k1, k2, k3⟩ := printEstimate_fin n c e EB shift a b nff h hb ha n c' e' hs
        rw [hs]
        constructor
        · intro herr
          refine ⟨h, hb, ha, n, c', e', rfl, ?_⟩
          by_contra h0
          push Not at h0
          by_cases hf : ErrFits e EB
          · rw [k2 h0 hf] at herr; cases herr
          · rw [k3 h0 hf] at herr; cases herr
        · rintro ⟨-, -, -, n2, c2, e2, heq, h0⟩
          cases heq
          exact k1 h0
  · rw [printEstimate_invalid mu EB shift a b nff h]
    simp [h]

/-- C03, a concrete case for each branch. -/
example : printEstimate (.fin false 12345 (-3)) (.fin false 67 (-3)) 1 = .ok "123.45(67)".toList ∧
    printEstimate (.fin false 12 3) .nan 0 = .error .valueError ∧
    printEstimate (.fin false 12345 (-3)) (.inf false) 0 (.inf true) (.fin false 1 1) =
      .ok ">10".toList ∧
    printEstimate (.inf true) (.inf false) 0 = .ok "-inf".toList := by decide +kernel

/-! ## C01 -/

/-- **C01** Reading back a printed estimate with a finite error gives exactly the shifted mean,
its number of decimal places and the shifted error. -/
theorem C01_read_back (n : Bool) (c : Nat) (e : Int) (nb : Bool) (cb : Nat) (eb : Int)
    (shift : Int) (a b : Dec) (nff : NonFiniteFmt) (s : Str) (hc : c < 10 ^ 28)
    (hb : DLe (.fin n c e) b) (ha : DLe a (.fin n c e))
    (h : printEstimate (.fin n c e) (.fin nb cb eb) shift a b nff = .ok s) :
    readEst s = some (shifted (sval n c e) shift, (-(e + shift)).toNat,
      some (shifted (sval nb cb eb) shift)) := by
  have hv : ValidClips a b := by
    by_contra hv; rw [printEstimate_invalid _ _ _ _ _ _ hv] at h; cases h
  obtain ⟨k1, k2, k3⟩ := printEstimate_fin n c e (.fin nb cb eb) shift a b nff hv hb ha n c
    (e + shift) (scaleb_exact shift n c e hc)
  by_cases h0 : e + shift ≤ 0
  · by_cases hf : ErrFits e (.fin nb cb eb)
    · rw [k2 h0 hf] at h
      injection h with h
      rw [← h, readEst_joinEst_fin, sval_shift]
      have herr : (cb : ℚ) / 10 ^ (-(e + shift)).toNat = shifted (sval nb cb eb) shift := by
        rcases Nat.eq_zero_or_pos cb with h1 | h1
        · subst h1; simp [shifted, sval]
        · obtain ⟨f1, f2⟩ := hf
          have f1' : e = eb := by omega
          have f2' : nb = false := by rcases f2 with h | h; exact h; omega
          subst f1' f2'
          rw [← sval_shift]
          unfold sval
          have he : e + shift = -(((-(e + shift)).toNat : Nat) : Int) := by omega
          conv_rhs => rw [he]
          rw [zpow_neg, zpow_natCast]
          simp [div_eq_mul_inv]
      rw [herr]
    · rw [k3 h0 hf] at h; cases h
  · rw [k1 (by omega)] at h; cases h

/-- **C01** With an infinite or NaN error the string has no parenthesis and reads back to exactly
the shifted mean. -/
theorem C01_read_back_no_error (n : Bool) (c : Nat) (e : Int) (EB : Dec)
    (hEB : EB = .nan ∨ ∃ x, EB = .inf x) (shift : Int) (a b : Dec) (nff : NonFiniteFmt) (s : Str)
    (hc : c < 10 ^ 28) (hb : DLe (.fin n c e) b) (ha : DLe a (.fin n c e))
    (h : printEstimate (.fin n c e) EB shift a b nff = .ok s) :
    readEst s = some (shifted (sval n c e) shift, (-(e + shift)).toNat, none) ∧ '(' ∉ s := by
  have hv : ValidClips a b := by
    by_contra hv; rw [printEstimate_invalid _ _ _ _ _ _ hv] at h; cases h
  obtain ⟨k1, k2, k3⟩ := printEstimate_fin n c e EB shift a b nff hv hb ha n c
    (e + shift) (scaleb_exact shift n c e hc)
  have hf : ErrFits e EB := by rcases hEB with rfl | ⟨x, rfl⟩ <;> trivial
  have hj : ∀ m, joinEst m EB = m := by rcases hEB with rfl | ⟨x, rfl⟩ <;> intro m <;> rfl
  by_cases h0 : e + shift ≤ 0
  · rw [k2 h0 hf, hj] at h
    injection h with h
    rw [← h, readEst_plain, sval_shift]
    exact ⟨rfl, numShape_not_mem (genFmt_shape _ _ _) '(' (by unfold IsDigit; decide) (by decide)
      (by decide) (by decide)⟩
  · rw [k1 (by omega)] at h; cases h

/-- C01, a concrete case: `-1234567.8(90)` shifted by 0 prints with commas and is read back. -/
example : printEstimate (.fin true 12345678 (-1)) (.fin false 90 (-1)) 0 =
      .ok "-1,234,567.8(90)".toList ∧
    readEst "-1,234,567.8(90)".toList = some (-12345678 / 10, 1, some 9) := by
  constructor
  · decide +kernel
  · have := C01_read_back true 12345678 (-1) false 90 (-1) 0 (.inf true) (.inf false)
      (fun _ => none) "-1,234,567.8(90)".toList (by norm_num) (by trivial) (by trivial)
      (by decide +kernel)
    rw [this]
    norm_num [shifted, sval]

/-! ## C02 -/

/-- **C02** Whatever finite number `print_estimate` prints has the documented shape: optional
minus, groups of three, optional fraction, optional error digits; clipped values are a mark and a
number. -/
theorem C02_estimate_shape (n : Bool) (c : Nat) (e : Int) (EB : Dec) (shift : Int) (a b : Dec)
    (nff : NonFiniteFmt) (s : Str)
    (h : printEstimate (.fin n c e) EB shift a b nff = .ok s) :
    (DLe (.fin n c e) b ∧ DLe a (.fin n c e) ∧ EstShape s) ∨
    (∃ t, s = '>' :: t ∧ NumShape t ∧ DLt b (.fin n c e)) ∨
    (∃ t, s = '<' :: t ∧ NumShape t ∧ DLt (.fin n c e) a) := by
  have hv : ValidClips a b := by
    by_contra hv; rw [printEstimate_invalid _ _ _ _ _ _ hv] at h; cases h
  rcases clip_cases (.fin n c e) a b hv with h1 | h1 | h1 | ⟨hb, ha⟩
  · right; left
    rw [printEstimate_above _ _ _ _ _ _ hv h1] at h
    injection h with h
    refine ⟨_, h.symm, ?_, h1⟩
    rcases hv.2.1 with rfl | ⟨n', c', e', rfl⟩
    · simp [DLt] at h1
    · obtain ⟨c2, e2, hs⟩ := scaleb_fin shift n' c' e'
      rw [hs]; exact genFmt_shape _ _ _
  · right; right
    rw [printEstimate_below _ _ _ _ _ _ hv h1] at h
    injection h with h
    refine ⟨_, h.symm, ?_, h1⟩
    rcases hv.1 with rfl | ⟨n', c', e', rfl⟩
    · simp [DLt] at h1
    · obtain ⟨c2, e2, hs⟩ := scaleb_fin shift n' c' e'
      rw [hs]; exact genFmt_shape _ _ _
  · cases h1
  · left
    refine ⟨hb, ha, ?_⟩
    obtain ⟨c', e', hs⟩ := scaleb_fin shift n c e
    obtain ⟨k1, k2, k3⟩ := printEstimate_fin n c e EB shift a b nff hv hb ha n c' e' hs
    by_cases h0 : e' ≤ 0
    · by_cases hf : ErrFits e EB
      · rw [k2 h0 hf] at h
        injection h with h
        rw [← h]; exact joinEst_shape n c' e' EB
      · rw [k3 h0 hf] at h; cases h
    · rw [k1 (by omega)] at h; cases h

/-- Characters of an estimate. -/
theorem estShape_chars {s : Str} (h : EstShape s) :
    ∀ x ∈ s, IsDigit x ∨ x = ',' ∨ x = '.' ∨ x = '-' ∨ x = '(' ∨ x = ')' := by
  intro x hx
  rcases h with h | ⟨m, e, rfl, hm, -, he⟩
  · rcases numShape_chars h x hx with h | h | h | h <;> tauto
  · simp only [List.mem_append, List.mem_singleton] at hx
    rcases hx with ((hx | hx) | hx) | hx
    · rcases numShape_chars hm x hx with h | h | h | h <;> tauto
    · tauto
    · left; exact he x hx
    · tauto

/-- **C02** Fixed alphabet: in particular no `E`. -/
theorem C02_alphabet (n : Bool) (c : Nat) (e : Int) (EB : Dec) (shift : Int) (a b : Dec)
    (nff : NonFiniteFmt) (s : Str)
    (h : printEstimate (.fin n c e) EB shift a b nff = .ok s) :
    (∀ x ∈ s.tail, IsDigit x ∨ x = ',' ∨ x = '.' ∨ x = '-' ∨ x = '(' ∨ x = ')') ∧
    (∀ x ∈ s, IsDigit x ∨ x = ',' ∨ x = '.' ∨ x = '-' ∨ x = '(' ∨ x = ')' ∨ x = '<' ∨ x = '>') ∧
    'E' ∉ s := by
  have key : (∀ x ∈ s.tail, IsDigit x ∨ x = ',' ∨ x = '.' ∨ x = '-' ∨ x = '(' ∨ x = ')') ∧
    (∀ x ∈ s, IsDigit x ∨ x = ',' ∨ x = '.' ∨ x = '-' ∨ x = '(' ∨ x = ')' ∨ x = '<' ∨ x = '>') := by
    rcases C02_estimate_shape n c e EB shift a b nff s h with ⟨-, -, h⟩ | ⟨t, rfl, ht, -⟩ | ⟨t, rfl, ht, -⟩
    · have hk := estShape_chars h
      refine ⟨fun x hx => hk x (List.mem_of_mem_tail hx), fun x hx => ?_⟩
      have := hk x hx; tauto
    · have hk := numShape_chars ht
      refine ⟨fun x hx => ?_, fun x hx => ?_⟩
      · have := hk x hx; tauto
      · rcases List.mem_cons.mp hx with h | h
        · tauto
        · have := hk x h; tauto
    · have hk := numShape_chars ht
      refine ⟨fun x hx => ?_, fun x hx => ?_⟩
      · have := hk x hx; tauto
      · rcases List.mem_cons.mp hx with h | h
        · tauto
        · have := hk x h; tauto
  refine ⟨key.1, key.2, fun hE => ?_⟩
  rcases key.2 'E' hE with h | h | h | h | h | h | h | h
  · revert h; unfold IsDigit; decide
  all_goals (revert h; decide)

/-! ## C11, C12: p-values -/

theorem printPval_fin (n : Bool) (c : Nat) (e : Int) (nff : NonFiniteFmt) :
    (sval n c e < 0 → printPval (.fin n c e) nff = .error .assertion) ∧
    (0 ≤ sval n c e → sval n c e ≤ 10 ^ e →
      printPval (.fin n c e) nff = .ok ('<' :: genFmt (.fin false 1 e))) ∧
    ((10 : ℚ) ^ e < sval n c e → sval n c e ≤ 1 →
      printPval (.fin n c e) nff = .ok (genFmt (.fin n c e))) ∧
    ((10 : ℚ) ^ e < sval n c e → 1 < sval n c e →
      printPval (.fin n c e) nff = .error .assertion) := by
  have h0 : sval false 0 0 = 0 := by simp [sval]
  have h1 : sval false 1 e = 10 ^ e := by simp [sval]
  have h2 : sval false 1 0 = 1 := by simp [sval]
  have le_eps : Dec.leNum (.fin n c e) (decimalEps (.fin n c e)) = decide (sval n c e ≤ 10 ^ e) := by
    rw [Bool.eq_iff_iff, leNum_iff]; simp [decimalEps, exponentOf, decimal1ek, DLe, h1]
  have ge0 : Dec.leNum (.ofNat 0) (.fin n c e) = decide (0 ≤ sval n c e) := by
    rw [Bool.eq_iff_iff, leNum_iff]; simp [Dec.ofNat, DLe, h0]
  have le1 : Dec.leNum (.fin n c e) (.ofNat 1) = decide (sval n c e ≤ 1) := by
    rw [Bool.eq_iff_iff, leNum_iff]; simp [Dec.ofNat, DLe, h2]
  have hpos := zpow10_pos e
  unfold printPval
  simp only [le_eps, ge0, le1, pyAssert_bind, Dec.isNan]
  refine ⟨fun h => ?_, fun h h' => ?_, fun h h' => ?_, fun h h' => ?_⟩
  · have a1 : sval n c e ≤ 10 ^ e := by linarith
    have a2 : ¬ 0 ≤ sval n c e := by linarith
    simp [a1, a2]
  · simp only [h, h', decide_true, Bool.and_self, if_true]
    rfl
  · have a1 : ¬ sval n c e ≤ 10 ^ e := by linarith
    simp only [a1, h', decide_true, decide_false]
    rfl
  · have a1 : ¬ sval n c e ≤ 10 ^ e := by linarith
    have a2 : ¬ sval n c e ≤ 1 := by linarith
    simp only [a1, a2, decide_false]
    rfl

/-- **C11** For a Decimal p-value in `[0,1]` with last place `10^e`: `<` and that unit
when the value is at most one unit, otherwise the exact value. -/
theorem C11_print_pval (n : Bool) (c : Nat) (e : Int) (nff : NonFiniteFmt)
    (h0 : 0 ≤ sval n c e) (h1 : sval n c e ≤ 1) :
    (sval n c e ≤ 10 ^ e ∧ ∃ s, printPval (.fin n c e) nff = .ok ('<' :: s) ∧ NumShape s ∧
        readNum s = some (10 ^ e, (-e).toNat)) ∨
    ((10 : ℚ) ^ e < sval n c e ∧ ∃ s, printPval (.fin n c e) nff = .ok s ∧ NumShape s ∧
        readNum s = some (sval n c e, (-e).toNat)) := by
  obtain ⟨-, k2, k3, -⟩ := printPval_fin n c e nff
  rcases le_or_gt (sval n c e) (10 ^ e) with h | h
  · left
    refine ⟨h, _, k2 h0 h, genFmt_shape _ _ _, ?_⟩
    rw [readNum_genFmt]; simp [sval]
  · right
    exact ⟨h, _, k3 h h1, genFmt_shape _ _ _, readNum_genFmt _ _ _⟩

/-- **C02** Whatever finite p-value `print_pval` prints is a number of the documented shape, or `<` and such a
number: digits, commas, a point, nothing else (no `E`, and no minus). -/
theorem C02_pval (n : Bool) (c : Nat) (e : Int) (nff : NonFiniteFmt) (s : Str)
    (h : printPval (.fin n c e) nff = .ok s) :
    (NumShape s ∨ ∃ t, s = '<' :: t ∧ NumShape t) ∧
    ∀ x ∈ s, IsDigit x ∨ x = ',' ∨ x = '.' ∨ x = '<' := by
  obtain ⟨k1, k2, k3, k4⟩ := printPval_fin n c e nff
  have chars : ∀ (c : Nat) (e : Int) (x : Char), x ∈ genFmt (.fin false c e) → IsDigit x ∨ x = ',' ∨ x = '.' := by
    intro c e x hx
    obtain ⟨hd1, hd2⟩ := fmtParts_digits c e
    obtain ⟨hh, gs, -, -, h3, h4, hg⟩ := group3_grouped ((fmtParts c e).1.map digitChar)
      (by simpa using fmtParts_ne c e) (isDigit_map hd1)
    rw [genFmt_fin, hg] at hx
    simp only [Bool.false_eq_true, if_false, List.nil_append, List.mem_append] at hx
    rcases hx with (hx | hx) | hx
    · exact .inl (h3 x hx)
    · obtain ⟨l, hl, hx⟩ := List.mem_flatten.mp hx
      obtain ⟨g, hg, rfl⟩ := List.mem_map.mp hl
      rcases List.mem_cons.mp hx with rfl | hx
      · exact .inr (.inl rfl)
      · exact .inl ((h4 g hg).2 x hx)
    · split_ifs at hx
      · simp at hx
      · rcases List.mem_cons.mp hx with rfl | hx
        · exact .inr (.inr rfl)
        · exact .inl (isDigit_map hd2 x hx)
  rcases lt_or_ge (sval n c e) 0 with h0 | h0
  · rw [k1 h0] at h; cases h
  rcases le_or_gt (sval n c e) (10 ^ e) with h1 | h1
  · rw [k2 h0 h1] at h
    injection h with h
    subst h
    refine ⟨.inr ⟨_, rfl, genFmt_shape _ _ _⟩, fun x hx => ?_⟩
    rcases List.mem_cons.mp hx with rfl | hx
    · simp
    · exact (chars _ _ x hx).imp_right (Or.imp_right .inl)
  · rcases le_or_gt (sval n c e) 1 with h2 | h2
    · rw [k3 h1 h2] at h
      injection h with h
      subst h
      have hn : n = false := by
        cases n with
        | false => rfl
        | true => rw [sval_neg] at h1; linarith [sval_nonneg c e, zpow10_pos e]
      subst hn
      exact ⟨.inl (genFmt_shape _ _ _), fun x hx => (chars _ _ x hx).imp_right (Or.imp_right .inl)⟩
    · rw [k4 h1 h2] at h; cases h

/-- The p-value 0.0317. -/
example : ∃ s, printPval (.fin false 317 (-4)) (fun _ => none) = .ok s ∧ s = "0.0317".toList ∧
    ∀ x ∈ s, IsDigit x ∨ x = ',' ∨ x = '.' ∨ x = '<' :=
  ⟨_, rfl, by decide, (C02_pval false 317 (-4) (fun _ => none) _ rfl).2⟩

/-- **C11** NaN prints the mapped name; values outside `[0,1]` raise AssertionError
(for `e ≤ 0`, as produced by `decimalize`). -/
theorem C11_print_pval_other (nff : NonFiniteFmt) :
    printPval .nan nff = .ok ((nff "nan".toList).getD "nan".toList) ∧
    (∀ n c e, e ≤ 0 → (sval n c e < 0 ∨ 1 < sval n c e) →
      printPval (.fin n c e) nff = .error .assertion) ∧
    printPval (.inf false) nff = .ok "<Infinity".toList ∧
    printPval (.inf true) nff = .error .assertion := by
  refine ⟨rfl, fun n c e he h => ?_, rfl, rfl⟩
  obtain ⟨k1, -, -, k4⟩ := printPval_fin n c e nff
  rcases h with h | h
  · exact k1 h
  · refine k4 ?_ h
    have : (10 : ℚ) ^ e ≤ 1 := zpow_le_one_of_nonpos₀ (by norm_num) he
    linarith

/-- C11, a concrete case: 0.0001 prints as `<0.0001`, 0.0002 as itself. -/
example : printPval (.fin false 1 (-4)) = .ok "<0.0001".toList ∧
    printPval (.fin false 2 (-4)) = .ok "0.0002".toList ∧
    printPval (.fin false 0 (-4)) = .ok "<0.0001".toList := by decide +kernel

/-- A dyadic rational is not a negative power of ten. -/
theorem dyadic_ne_pow10 (n : Bool) (m : Nat) (e : Int) (k : Nat) (hk : 1 ≤ k) :
    fval n m e ≠ (10 : ℚ) ^ (-(k : Int)) := by
  intro h
  have hpos : (0 : ℚ) < 10 ^ (-(k : Int)) := zpow10_pos _
  have hn : n = false := by
    cases n with
    | false => rfl
    | true =>
      rw [fval_neg] at h
      have : 0 ≤ fval false m e := by unfold fval; simp; positivity
      linarith
  subst hn
  unfold fval at h
  simp only [Bool.false_eq_true, if_false, one_mul] at h
  rw [zpow_neg, zpow_natCast] at h
  -- m * 2^e * 10^k = 1
  have h2 : (m : ℚ) * 2 ^ e * 10 ^ k = 1 := by
    rw [h]; exact inv_mul_cancel₀ (by positivity)
  -- clear denominators: m * 10^k * 2^a = 2^b
  have h3 : (m : ℚ) * 10 ^ k * 2 ^ e.toNat = 2 ^ (-e).toNat := by
    have he : e = (e.toNat : Int) - ((-e).toNat : Int) := by omega
    rw [he, zpow_sub₀ (by norm_num), zpow_natCast, zpow_natCast] at h2
    have hne : (2 : ℚ) ^ (-e).toNat ≠ 0 := by positivity
    field_simp at h2
    linarith
  have h4 : m * 10 ^ k * 2 ^ e.toNat = 2 ^ (-e).toNat := by exact_mod_cast h3
  have h5 : 5 ∣ 2 ^ (-e).toNat := by
    rw [← h4]
    refine Dvd.dvd.mul_right (Dvd.dvd.mul_left ?_ _) _
    exact dvd_pow (by norm_num) (by omega)
  have h6 := (Nat.Prime.dvd_of_dvd_pow (by norm_num : Nat.Prime 5) h5)
  norm_num at h6

/-- **C12** If `decimalize` and then `print_pval` print `<10^-k`, the float p-value was strictly
smaller than `10^-k`. -/
theorem C12_strict_bound (o : DecimalizeOpts) (lim : Option Int) (x : FpCell) (r : DecCell)
    (n : Bool) (m : Nat) (e : Int) (hx : x.pval = .fin n m e) (hk : 1 ≤ o.pvalDigits)
    (h : decimalizeCell o lim x = .ok r) (nff : NonFiniteFmt) (s : Str)
    (hs : printPval r.pval nff = .ok ('<' :: s)) :
    readNum s = some ((10 : ℚ) ^ (-(o.pvalDigits : Int)), o.pvalDigits) ∧
      fval n m e < (10 : ℚ) ^ (-(o.pvalDigits : Int)) := by
  obtain ⟨c, hr, hceil, hge, hlt, h0, h1⟩ := C06_pval_never_understated o lim x r n m e hx h
  rw [hr] at hs
  obtain ⟨-, k2, k3, -⟩ := printPval_fin n c (-(o.pvalDigits : Int)) nff
  rcases le_or_gt (sval n c (-(o.pvalDigits : Int))) (10 ^ (-(o.pvalDigits : Int))) with hle | hgt
  · rw [k2 h0 hle] at hs
    injection hs with hs
    injection hs with _ hs
    constructor
    · rw [← hs, readNum_genFmt]; simp [sval]
    · refine lt_of_le_of_ne (le_trans hge hle) (dyadic_ne_pow10 n m e _ hk)
  · rw [k3 hgt h1] at hs
    injection hs with hs
    exfalso
    have := numShape_not_mem (genFmt_shape n c (-(o.pvalDigits : Int))) '<'
      (by unfold IsDigit; decide) (by decide) (by decide) (by decide)
    rw [hs] at this
    simp at this

/-- A string starting with `<` is not a number. -/
theorem readNum_lt (t : Str) : readNum ('<' :: t) = none := by
  have hf : List.filter (fun c => decide (c ≠ ',')) ('<' :: t) =
      '<' :: List.filter (fun c => decide (c ≠ ',')) t := by
    rw [List.filter_cons, if_pos (by decide)]
  unfold readNum
  rw [hf]
  generalize List.filter (fun c => decide (c ≠ ',')) t = t'
  have hn : ∀ u, readNat ('<' :: u) = none := fun u => by
    simp [readNat, readDigitsFrom, show readDigit '<' = none by decide]
  have hsp : Spec.splitAt '.' ('<' :: t') =
      ('<' :: (Spec.splitAt '.' t').1, (Spec.splitAt '.' t').2) := by
    rw [Spec.splitAt, if_neg (by decide)]
  change readUnsigned ('<' :: t') = none
  unfold readUnsigned
  rw [hsp]
  cases (Spec.splitAt '.' t').2 <;> simp [hn]

/-- **C12** Otherwise, the printed p-value is exactly the converted one and at least the float. -/
theorem C12_printed_not_below (o : DecimalizeOpts) (lim : Option Int) (x : FpCell) (r : DecCell)
    (n : Bool) (m : Nat) (e : Int) (hx : x.pval = .fin n m e)
    (h : decimalizeCell o lim x = .ok r) (nff : NonFiniteFmt) (s : Str) (v : ℚ) (k : Nat)
    (hs : printPval r.pval nff = .ok s) (hv : readNum s = some (v, k)) :
    k = o.pvalDigits ∧ fval n m e ≤ v ∧ v < fval n m e + (10 : ℚ) ^ (-(o.pvalDigits : Int)) := by
  obtain ⟨c, hr, hceil, hge, hlt, h0, h1⟩ := C06_pval_never_understated o lim x r n m e hx h
  rw [hr] at hs
  obtain ⟨-, k2, k3, -⟩ := printPval_fin n c (-(o.pvalDigits : Int)) nff
  rcases le_or_gt (sval n c (-(o.pvalDigits : Int))) (10 ^ (-(o.pvalDigits : Int))) with hle | hgt
  · rw [k2 h0 hle] at hs
    injection hs with hs
    -- a string starting with '<' is not a number
    exfalso
    rw [← hs] at hv
    rw [readNum_lt] at hv
    cases hv
  · rw [k3 hgt h1] at hs
    injection hs with hs
    rw [← hs, readNum_genFmt] at hv
    injection hv with hv
    obtain ⟨rfl, rfl⟩ := Prod.mk.inj hv
    exact ⟨by omega, hge, hlt⟩

/-- C12, a concrete case: p = 2^-14 (0.000061...) prints as `<0.0001`. -/
example : (do
    let r ← decimalizeCell {} none ⟨.fin false 1 0, .fin false 1 0, .fin false 1 (-14)⟩
    printPval r.pval : Py Str) = .ok "<0.0001".toList := by decide +kernel

/-! ## C08 -/

/-- **C08** Decimals produced by `decimalize` never trip the assertions of `print_estimate`: with
valid clips the call either succeeds or raises the documented ValueError. -/
theorem C08_decimalize_fits_print (o : DecimalizeOpts) (lim : Option Int) (x : FpCell) (r : DecCell)
    (h : decimalizeCell o lim x = .ok r) (shift : Int) (a b : Dec) (nff : NonFiniteFmt)
    (hv : ValidClips a b) :
    (∃ s, printEstimate r.mean r.err shift a b nff = .ok s) ∨
      printEstimate r.mean r.err shift a b nff = .error .valueError := by
  rcases clip_cases r.mean a b hv with h1 | h1 | h1 | ⟨hb, ha⟩
  · left; exact ⟨_, printEstimate_above _ _ _ _ _ _ hv h1⟩
  · left; exact ⟨_, printEstimate_below _ _ _ _ _ _ hv h1⟩
  · left; rw [h1]; exact ⟨_, printEstimate_nan _ _ _ _ _ hv⟩
  · cases hm : r.mean with
    | nan => rw [hm] at hb; simp [DLe] at hb
    | inf n => left; rw [hm] at hb ha; exact ⟨_, printEstimate_inf _ _ _ _ _ _ hv hb ha⟩
    | fin n c e =>
      rw [hm] at hb ha
      obtain ⟨c', e', hs⟩ := scaleb_fin shift n c e
      obtain ⟨k1, k2, k3⟩ := printEstimate_fin n c e r.err shift a b nff hv hb ha n c' e' hs
      by_cases h0 : e' ≤ 0
      · left
        refine ⟨_, k2 h0 ?_⟩
        obtain ⟨h1, eb0, he, hnn, herr, hmean, -, -⟩ := decimalizeCell_ok h
        cases hre : r.err with
        | nan => trivial
        | inf _ => trivial
        | fin nb cb eb =>
          have hclip : eb0 = .fin nb cb eb := by
            rcases clipErr_cases lim eb0 with h2 | h2
            · rw [← h2, ← herr, hre]
            · rw [h2, hre] at herr; cases herr
          refine ⟨?_, ?_⟩
          · by_cases hcb : cb = 0
            · left; exact hcb
            · right
              unfold cellMean at hmean
              rw [hre, if_pos (by simp [Dec.isFinite, Dec.isZero, hcb]), hm] at hmean
              cases hof : Dec.ofFloat x.mean with
              | nan => rw [hof] at hmean; simp [Dec.quantize] at hmean
              | inf _ => rw [hof] at hmean; simp [Dec.quantize] at hmean
              | fin n2 c2 e2 =>
                rw [hof, quantize_fin] at hmean
                split at hmean
                · cases hmean
                · cases hmean; rfl
          · rw [hclip] at hnn
            have hnn' : 0 ≤ sval nb cb eb := by simpa [Dec.isNan, leNum_zero_fin] using hnn
            cases nb with
            | false => left; rfl
            | true =>
              right
              rw [sval_neg] at hnn'
              have := sval_nonneg cb eb
              exact (sval_eq_zero false cb eb).mp (by linarith)
      · right; exact k1 (by omega)

/-- **C09** A clipped (infinite) error is printed without parentheses. -/
theorem C09_clipped_no_parens (o : DecimalizeOpts) (lim : Option Int) (x : FpCell) (r : DecCell)
    (h : decimalizeCell o lim x = .ok r) (hr : r.err = .inf false) (hd : o.defaultDigits ≤ 28)
    (n : Bool) (c : Nat) (e : Int) (hm : r.mean = .fin n c e) (shift : Int) (nff : NonFiniteFmt)
    (s : Str) (hs : printEstimate r.mean r.err shift (.inf true) (.inf false) nff = .ok s) :
    '(' ∉ s := by
  have h1 := C09_clipped_mean o lim x r h hr
  rw [hm, hr] at hs
  have hc : c < 10 ^ 28 := by
    rw [createDecimal_eq] at h1
    split at h1
    · rename_i hd1
      rw [hm] at h1
      injection h1 with h1
      cases hof : Dec.ofFloat x.mean with
      | nan => rw [hof] at h1; cases h1
      | inf _ => rw [hof] at h1; cases h1
      | fin n2 c2 e2 =>
        rw [hof, pos_fin] at h1
        obtain ⟨c', e', hfix, hlt, -⟩ := fix_halfUp o.defaultDigits hd1 (if c2 = 0 then false else n2) c2 e2
        rw [hfix] at h1
        cases h1
        exact lt_of_lt_of_le hlt (Nat.pow_le_pow_right (by norm_num) hd)
    · cases h1
  exact (C01_read_back_no_error n c e (.inf false) (Or.inr ⟨false, rfl⟩) shift _ _ nff s hc
    (by trivial) (by trivial) hs).2

/-! ## C24: helpers -/

/-- **C24** Meaning of the small Decimal helpers. -/
theorem C24_decimal_helpers :
    (∀ (k : Int) (sg : Bool), HasValAt (decimal1ek (.int k) sg) (if sg then -10 ^ k else 10 ^ k) k) ∧
    (∀ sg, decimal1ek .F sg = .inf sg) ∧
    (∀ n c e, HasValAt (decimalEps (.fin n c e)) (10 ^ e) e) ∧
    (∀ x, decimalToDot x = true ↔ ∃ n c e, x = .fin n c e ∧ e ≤ 0) ∧
    (∀ n c e s, digitStr (.fin n c e) = .ok s →
      readNat s = some c ∧ (s = ['0'] ∨ s.head? ≠ some '0')) ∧
    (∀ x, (∀ n c e, x ≠ .fin n c e) →
      digitStr x = .error .valueError ∧ asTupleChk x = .error .valueError) ∧
    (∀ n c e, ∃ ds, asTupleChk (.fin n c e) = .ok (n, ds, e) ∧ decimalFromTuple n ds e = .fin n c e) := by
  refine ⟨fun k sg => ⟨sg, 1, rfl, ?_⟩, fun _ => rfl, fun n c e => ⟨false, 1, rfl, ?_⟩, ?_, ?_, ?_, ?_⟩
  · cases sg <;> simp [sval]
  · simp [sval]
  · intro x; cases x <;> simp [decimalToDot]
  · intro n c e s h
    have h' : digitsStr c = s := by
      have : digitStr (.fin n c e) = .ok (digitsStr c) := rfl
      rw [this] at h; injection h
    subst h'
    refine ⟨readNat_digitsStr c, ?_⟩
    by_cases hc : c = 0
    · left; subst hc; decide
    · right
      unfold digitsStr
      rw [List.head?_map]
      have hh := digitsBE_head c hc
      cases h : (digitsBE c).head? with
      | none => simp
      | some d =>
        rw [h] at hh
        have hd : d < 10 := digitsBE_lt c d (List.mem_of_head? h)
        have hd0 : d ≠ 0 := fun h0 => hh (by rw [h0])
        simp only [Option.map_some, ne_eq, Option.some.injEq]
        interval_cases d
        · exact absurd rfl hd0
        all_goals decide
  · intro x hx
    cases x with
    | fin n c e => exact absurd rfl (hx n c e)
    | inf n => exact ⟨rfl, rfl⟩
    | nan => exact ⟨rfl, rfl⟩
  · intro n c e
    refine ⟨digitsBE c, rfl, ?_⟩
    unfold decimalFromTuple
    rw [foldl_digitsBE]

/-- **C24** `all_same` holds exactly when any two elements are equal. -/
theorem C24_all_same {α : Type} [DecidableEq α] (L : List α) :
    allSame L = true ↔ ∀ x ∈ L, ∀ y ∈ L, x = y := by
  cases L with
  | nil => simp [allSame]
  | cons a l =>
    simp only [allSame, List.all_eq_true, decide_eq_true_eq]
    constructor
    · intro h x hx y hy; rw [h x hx, h y hy]
    · intro h x hx; exact h x hx a (by simp)

/-- C24, concrete: `decimal_eps(1.230) = 0.001` and `all_same([1,1,2])` is false. -/
example : decimalEps (.fin false 1230 (-3)) = .fin false 1 (-3) ∧ allSame [1, 1, 2] = false := by
  decide

end Mlp.Props
