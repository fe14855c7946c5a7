import Verif.Lemmas.Format
import Verif.Lemmas.PyLemmas
import Verif.Lemmas.Round

/-! # `print_estimate` and `print_pval` in closed form -/

namespace Mlp
open Spec Sciprint

/-- Admissible clip limits: each finite or absent (infinite), and in order. -/
def ValidClips (minC maxC : Dec) : Prop :=
  (minC = .inf true ∨ ∃ n c e, minC = .fin n c e) ∧
  (maxC = .inf false ∨ ∃ n c e, maxC = .fin n c e) ∧ DLt minC maxC

theorem dlt_iff_not_dle (a b : Dec) (ha : a.isNan = false) (hb : b.isNan = false) :
    DLt a b ↔ ¬ DLe b a := by
  rw [← not_leNum_iff a b ha hb, ← leNum_iff, Bool.not_eq_true]

theorem ValidClips.notNan {a b : Dec} (h : ValidClips a b) : a.isNan = false ∧ b.isNan = false := by
  obtain ⟨h1, h2, -⟩ := h
  constructor
  · rcases h1 with rfl | ⟨n, c, e, rfl⟩ <;> rfl
  · rcases h2 with rfl | ⟨n, c, e, rfl⟩ <;> rfl

theorem validClips_iff (a b : Dec) :
    ((a == .inf true || a.isFinite) = true ∧ (b == .inf false || b.isFinite) = true ∧
      (!(Dec.leNum b a)) = true) ↔ ValidClips a b := by
  have ha : (a == .inf true || a.isFinite) = true ↔ (a = .inf true ∨ ∃ n c e, a = .fin n c e) := by
    cases a <;> simp [Dec.isFinite]
  have hb : (b == .inf false || b.isFinite) = true ↔ (b = .inf false ∨ ∃ n c e, b = .fin n c e) := by
    cases b <;> simp [Dec.isFinite]
  unfold ValidClips
  rw [ha, hb]
  constructor
  · rintro ⟨h1, h2, h3⟩
    refine ⟨h1, h2, ?_⟩
    have na : a.isNan = false := by rcases h1 with rfl | ⟨n, c, e, rfl⟩ <;> rfl
    have nb : b.isNan = false := by rcases h2 with rfl | ⟨n, c, e, rfl⟩ <;> rfl
    exact (not_leNum_iff a b na nb).mp (by simpa using h3)
  · rintro ⟨h1, h2, h3⟩
    refine ⟨h1, h2, ?_⟩
    have na : a.isNan = false := by rcases h1 with rfl | ⟨n, c, e, rfl⟩ <;> rfl
    have nb : b.isNan = false := by rcases h2 with rfl | ⟨n, c, e, rfl⟩ <;> rfl
    simpa using (not_leNum_iff a b na nb).mpr h3

/-- The three assertions on the clip limits. -/
theorem printEstimate_invalid (mu EB : Dec) (shift : Int) (a b : Dec) (nff : NonFiniteFmt)
    (h : ¬ ValidClips a b) : printEstimate mu EB shift a b nff = .error .assertion := by
  unfold printEstimate
  rw [← validClips_iff] at h
  simp only [pyAssert_bind]
  by_cases h1 : (a == .inf true || a.isFinite) = true
  · rw [if_pos h1]
    by_cases h2 : (b == .inf false || b.isFinite) = true
    · rw [if_pos h2]
      have h3 : ¬ ((!(Dec.leNum b a)) = true) := fun h3 => h ⟨h1, h2, h3⟩
      rw [if_neg h3]
    · rw [if_neg h2]
  · rw [if_neg h1]

theorem printEstimate_above (mu EB : Dec) (shift : Int) (a b : Dec) (nff : NonFiniteFmt)
    (h : ValidClips a b) (hc : DLt b mu) :
    printEstimate mu EB shift a b nff = .ok ('>' :: genFmt (Dec.scaleb shift b)) := by
  obtain ⟨h1, h2, h3⟩ := (validClips_iff a b).mpr h
  have hmu : mu.isNan = false := by cases mu <;> cases b <;> simp_all [DLt, Dec.isNan]
  have hb : b.isFinite = true := by
    rcases h.2.1 with rfl | ⟨n, c, e, rfl⟩
    · cases mu with
      | nan => simp [DLt] at hc
      | inf n => cases n <;> simp [DLt] at hc
      | fin => simp [DLt] at hc
    · rfl
  have hle := (not_leNum_iff b mu h.notNan.2 hmu).mpr hc
  unfold printEstimate
  simp only [pyAssert_bind]
  rw [if_pos h1, if_pos h2, if_pos h3, if_pos (by simp [hmu, hle]), if_pos hb]
  rfl

theorem printEstimate_below (mu EB : Dec) (shift : Int) (a b : Dec) (nff : NonFiniteFmt)
    (h : ValidClips a b) (hc : DLt mu a) :
    printEstimate mu EB shift a b nff = .ok ('<' :: genFmt (Dec.scaleb shift a)) := by
  obtain ⟨h1, h2, h3⟩ := (validClips_iff a b).mpr h
  have hmu : mu.isNan = false := by cases mu <;> cases a <;> simp_all [DLt, Dec.isNan]
  have ha : a.isFinite = true := by
    rcases h.1 with rfl | ⟨n, c, e, rfl⟩
    · cases mu with
      | nan => simp [DLt] at hc
      | inf n => cases n <;> simp [DLt] at hc
      | fin => simp [DLt] at hc
    · rfl
  have hle := (not_leNum_iff mu a hmu h.notNan.1).mpr hc
  have hle2 : Dec.leNum mu b = true := by
    rw [leNum_iff]
    have h4 := h.2.2
    cases mu with
    | nan => simp [Dec.isNan] at hmu
    | inf n =>
      cases n
      · cases a with
        | nan => simp [DLt] at hc
        | inf n => cases n <;> simp [DLt] at hc
        | fin => simp [DLt] at hc
      · rcases h.2.1 with rfl | ⟨n, c, e, rfl⟩ <;> simp [DLe]
    | fin n c e =>
      rcases h.2.1 with rfl | ⟨n', c', e', rfl⟩
      · simp [DLe]
      · rcases h.1 with rfl | ⟨n2, c2, e2, rfl⟩
        · simp [DLt] at hc
        · simp only [DLt] at hc h4
          simp only [DLe]
          linarith
  unfold printEstimate
  simp only [pyAssert_bind]
  rw [if_pos h1, if_pos h2, if_pos h3, if_neg (by simp [hle2]), if_pos (by simp [hmu, hle]),
    if_pos ha]
  rfl

theorem printEstimate_nan (EB : Dec) (shift : Int) (a b : Dec) (nff : NonFiniteFmt)
    (h : ValidClips a b) :
    printEstimate .nan EB shift a b nff = .ok ((nff "nan".toList).getD "nan".toList) := by
  obtain ⟨h1, h2, h3⟩ := (validClips_iff a b).mpr h
  unfold printEstimate
  simp only [pyAssert_bind]
  rw [if_pos h1, if_pos h2, if_pos h3, if_neg (by simp [Dec.isNan]), if_neg (by simp [Dec.isNan])]
  rfl

theorem printEstimate_inf (EB : Dec) (shift : Int) (a b : Dec) (nff : NonFiniteFmt) (n : Bool)
    (h : ValidClips a b) (hb : DLe (.inf n) b) (ha : DLe a (.inf n)) :
    printEstimate (.inf n) EB shift a b nff =
      .ok ((nff (if n then "-inf".toList else "inf".toList)).getD
        (if n then "-inf".toList else "inf".toList)) := by
  obtain ⟨h1, h2, h3⟩ := (validClips_iff a b).mpr h
  unfold printEstimate
  simp only [pyAssert_bind]
  rw [if_pos h1, if_pos h2, if_pos h3, if_neg (by simp [(leNum_iff _ _).mpr hb]),
    if_neg (by simp [(leNum_iff _ _).mpr ha])]
  rfl

/-- Value and error together, as `print_estimate` joins them. -/
def joinEst (m : Str) (EB : Dec) : Str :=
  match EB with
  | .fin _ cb _ => m ++ ['('] ++ digitsStr cb ++ [')']
  | _ => m

/-- The error bar is acceptable for a mean with exponent `e`. -/
def ErrFits (e : Int) : Dec → Prop
  | .fin nb cb eb => (cb = 0 ∨ e = eb) ∧ (nb = false ∨ cb = 0)
  | _ => True

theorem noE_digits {s : Str} (h : ∀ c ∈ s, IsDigit c) : 'E' ∉ s :=
  (not_mem_of_isDigit h).2.2.2.2.2

theorem numShape_chars {s : Str} (h : NumShape s) :
    ∀ c ∈ s, IsDigit c ∨ c = ',' ∨ c = '.' ∨ c = '-' := by
  obtain ⟨sg, ip, fr, rfl, hsg, ⟨hh, gs, -, -, h3, h4, rfl⟩, -, hfr⟩ := h
  intro c hc
  rcases List.mem_append.mp hc with hc | hc
  · rcases List.mem_append.mp hc with hc | hc
    · rcases hsg with rfl | rfl
      · simp at hc
      · right; right; right; simpa using hc
    · rcases List.mem_append.mp hc with hc | hc
      · left; exact h3 c hc
      · obtain ⟨l, hl, hc⟩ := List.mem_flatten.mp hc
        obtain ⟨g, hg, rfl⟩ := List.mem_map.mp hl
        rcases List.mem_cons.mp hc with rfl | hc
        · right; left; rfl
        · left; exact (h4 g hg).2 c hc
  · rcases hfr with rfl | ⟨ds, rfl, -, hd⟩
    · simp at hc
    · rcases List.mem_cons.mp hc with rfl | hc
      · right; right; left; rfl
      · left; exact hd c hc

theorem digitsStr_isDigit (c : Nat) : ∀ x ∈ digitsStr c, IsDigit x :=
  isDigit_map (digitsBE_lt c)

theorem digitsStr_ne (c : Nat) : digitsStr c ≠ [] := by
  simpa [digitsStr] using digitsBE_ne_nil c

theorem readNat_digitsStr (c : Nat) : readNat (digitsStr c) = some c := by
  unfold digitsStr
  rw [readNat_map _ (digitsBE_lt c) (digitsBE_ne_nil c), foldDigits_digitsBE]

theorem numShape_not_mem {s : Str} (h : NumShape s) (x : Char) (hx : ¬ IsDigit x) (h1 : x ≠ ',')
    (h2 : x ≠ '.') (h3 : x ≠ '-') : x ∉ s := by
  intro hc
  rcases numShape_chars h x hc with h | h | h | h
  · exact hx h
  · exact h1 h
  · exact h2 h
  · exact h3 h

theorem joinEst_noE (n : Bool) (c : Nat) (e : Int) (EB : Dec) :
    'E' ∉ joinEst (genFmt (.fin n c e)) EB := by
  have h1 : 'E' ∉ genFmt (.fin n c e) :=
    numShape_not_mem (genFmt_shape n c e) 'E' (by unfold IsDigit; decide) (by decide) (by decide)
      (by decide)
  unfold joinEst
  split
  · simp only [List.mem_append, List.mem_singleton]
    rintro (((h | h) | h) | h)
    · exact h1 h
    · revert h; decide
    · exact noE_digits (digitsStr_isDigit _) h
    · revert h; decide
  · exact h1

theorem printEstimate_fin (n : Bool) (c : Nat) (e : Int) (EB : Dec) (shift : Int) (a b : Dec)
    (nff : NonFiniteFmt) (h : ValidClips a b) (hb : DLe (.fin n c e) b) (ha : DLe a (.fin n c e))
    (n' : Bool) (c' : Nat) (e' : Int) (hs : Dec.scaleb shift (.fin n c e) = .fin n' c' e') :
    (0 < e' → printEstimate (.fin n c e) EB shift a b nff = .error .valueError) ∧
    (e' ≤ 0 → ErrFits e EB →
      printEstimate (.fin n c e) EB shift a b nff = .ok (joinEst (genFmt (.fin n' c' e')) EB)) ∧
    (e' ≤ 0 → ¬ ErrFits e EB →
      printEstimate (.fin n c e) EB shift a b nff = .error .assertion) := by
  obtain ⟨h1, h2, h3⟩ := (validClips_iff a b).mpr h
  have hE := joinEst_noE n' c' e' EB
  have red : printEstimate (.fin n c e) EB shift a b nff =
      if !decimalToDot (.fin n' c' e') then .error .valueError
      else (do
        let stdStr ←
          (if EB.isFinite then (do
            pyAssert (EB.isZero || decide (Expo.int e = exponentOf EB))
            pyAssert (Dec.leNum (.ofNat 0) EB)
            let ebStr ← digitStr EB
            pure (genFmt (.fin n' c' e') ++ ['('] ++ ebStr ++ [')']))
          else pure (genFmt (.fin n' c' e')) : Py Str)
        pyAssert (!(stdStr.contains 'E'))
        return stdStr) := by
    unfold printEstimate
    simp only [pyAssert_bind]
    rw [if_pos h1, if_pos h2, if_pos h3, if_neg (by simp [(leNum_iff _ _).mpr hb]),
      if_neg (by simp [(leNum_iff _ _).mpr ha])]
    simp only [hs]
    rfl
  refine ⟨fun h0 => ?_, fun h0 hf => ?_, fun h0 hf => ?_⟩
  · rw [red, if_pos (by simp [decimalToDot]; omega)]
  · rw [red, if_neg (by simp [decimalToDot]; omega)]
    cases EB with
    | nan => simp only [Dec.isFinite, joinEst] at *; simp [pyAssert, pure_eq_ok, ok_bind, hE]
    | inf _ => simp only [Dec.isFinite, joinEst] at *; simp [pyAssert, pure_eq_ok, ok_bind, hE]
    | fin nb cb eb =>
      obtain ⟨hf1, hf2⟩ := hf
      have hz : ((Dec.fin nb cb eb).isZero || decide (Expo.int e = exponentOf (.fin nb cb eb))) = true := by
        rcases hf1 with hf1 | hf1 <;> simp [Dec.isZero, exponentOf, hf1]
      have hnn : Dec.leNum (.ofNat 0) (.fin nb cb eb) = true := by
        rw [leNum_iff]
        have h0' : sval false 0 0 = 0 := by simp [sval]
        simp only [DLe, Dec.ofNat, h0']
        rcases hf2 with hf2 | hf2
        · rw [hf2]; exact sval_nonneg _ _
        · rw [hf2]; simp [sval]
      simp only [Dec.isFinite, if_true, pyAssert_bind, hz, hnn, digitStr, asTupleChk, ok_bind,
        pure_eq_ok]
      simp only [joinEst] at hE
      have hE' : (!(genFmt (.fin n' c' e') ++ ['('] ++ digitsStr cb ++ [')']).contains 'E') = true := by
        simpa using hE
      change (if (!(genFmt (.fin n' c' e') ++ ['('] ++ digitsStr cb ++ [')']).contains 'E') = true
        then _ else _) = _
      rw [if_pos hE']
      rfl
  · rw [red, if_neg (by simp [decimalToDot]; omega)]
    cases EB with
    | nan => exact absurd trivial hf
    | inf _ => exact absurd trivial hf
    | fin nb cb eb =>
      simp only [Dec.isFinite, if_true, pyAssert_bind]
      by_cases hz : ((Dec.fin nb cb eb).isZero || decide (Expo.int e = exponentOf (.fin nb cb eb))) = true
      · rw [if_pos hz]
        have hz' : cb = 0 ∨ e = eb := by
          rcases Bool.or_eq_true_iff.mp hz with h | h
          · left; simpa [Dec.isZero] using h
          · right; simpa [exponentOf] using h
        have hnn : ¬ (Dec.leNum (.ofNat 0) (.fin nb cb eb) = true) := by
          intro hc
          rw [leNum_iff] at hc
          have h0' : sval false 0 0 = 0 := by simp [sval]
          simp only [DLe, Dec.ofNat, h0'] at hc
          apply hf
          refine ⟨hz', ?_⟩
          cases nb with
          | false => left; rfl
          | true =>
            right
            rw [sval_neg] at hc
            have := sval_nonneg cb eb
            exact (sval_eq_zero false cb eb).mp (by linarith)
        rw [if_neg hnn]
        rfl
      · rw [if_neg hz]
        rfl

theorem scaleb_exact (shift : Int) (n : Bool) (c : Nat) (e : Int) (h : c < 10 ^ 28) :
    Dec.scaleb shift (.fin n c e) = .fin n c (e + shift) := by
  have h2 : ndig c ≤ Dec.ctxPrec := (ndig_le_iff c 28 (by norm_num)).mpr h
  simp [Dec.scaleb, Dec.fix, h2]

theorem scaleb_fin (shift : Int) (n : Bool) (c : Nat) (e : Int) :
    ∃ c' e', Dec.scaleb shift (.fin n c e) = .fin n c' e' := by
  obtain ⟨c', e', h, -⟩ := fix_spec 28 (by norm_num) .halfEven n c (e + shift)
  exact ⟨c', e', h⟩

theorem sval_shift (n : Bool) (c : Nat) (e s : Int) :
    sval n c (e + s) = shifted (sval n c e) s := by
  unfold sval shifted
  rw [zpow_add₀ (by norm_num)]; ring

/-- Reading back a joined estimate. -/
theorem readEst_joinEst_fin (n : Bool) (c : Nat) (e : Int) (nb : Bool) (cb : Nat) (eb : Int) :
    readEst (joinEst (genFmt (.fin n c e)) (.fin nb cb eb)) =
      some (sval n c e, (-e).toNat, some ((cb : ℚ) / 10 ^ (-e).toNat)) := by
  have hs := genFmt_shape n c e
  have hno : '(' ∉ genFmt (.fin n c e) :=
    numShape_not_mem hs '(' (by unfold IsDigit; decide) (by decide) (by decide) (by decide)
  have hno2 : ')' ∉ digitsStr cb := (not_mem_of_isDigit (digitsStr_isDigit cb)).2.2.2.2.1
  unfold readEst joinEst
  simp only [List.append_assoc, List.cons_append, List.nil_append]
  rw [splitAt_append hno]
  simp only []
  rw [splitAt_append hno2]
  simp only [readNum_genFmt, readNat_digitsStr, Option.bind_some, Option.map_some]

theorem readEst_plain (n : Bool) (c : Nat) (e : Int) :
    readEst (genFmt (.fin n c e)) = some (sval n c e, (-e).toNat, none) := by
  have hs := genFmt_shape n c e
  have hno : '(' ∉ genFmt (.fin n c e) :=
    numShape_not_mem hs '(' (by unfold IsDigit; decide) (by decide) (by decide) (by decide)
  unfold readEst
  rw [splitAt_not_mem hno]
  simp only [readNum_genFmt, Option.map_some]

theorem joinEst_shape (n : Bool) (c : Nat) (e : Int) (EB : Dec) :
    EstShape (joinEst (genFmt (.fin n c e)) EB) := by
  unfold joinEst
  split
  · right
    exact ⟨_, _, rfl, genFmt_shape n c e, digitsStr_ne _, digitsStr_isDigit _⟩
  · left; exact genFmt_shape n c e

end Mlp
