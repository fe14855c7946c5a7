import Verif.Spec.DecimalLimits
import Verif.Props.Shift
import Verif.Lemmas.Round

/-! # C144: the limits of decimal arithmetic on exponents are never reached -/

namespace Mlp.Props
open Mlp Spec Sciprint Dec

theorem forall₂_mem_snd {α β : Type} {R : α → β → Prop} {l : List α} {l' : List β} (h : List.Forall₂ R l l') {b : β} (hb : b ∈ l') :
    ∃ a ∈ l, R a b := by
  induction h with
  | nil => simp at hb
  | cons h1 _ ih =>
    rcases List.mem_cons.1 hb with rfl | h2
    · exact ⟨_, by simp, h1⟩
    · obtain ⟨a, ha, hr⟩ := ih h2
      exact ⟨a, by simp [ha], hr⟩

theorem bind_congr_py {α β : Type} {x : Py α} {f g : α → Py β} (h : ∀ a, x = .ok a → f a = g a) : (x >>= f) = (x >>= g) := by
  cases x with
  | error e => rfl
  | ok a => exact h a rfl

theorem _root_.Mlp.Spec.Within.mono {A B : Int} {x : Dec} (hx : Within A x) (h : A ≤ B) : Within B x := by
  cases x with
  | fin n c e => exact ⟨by have := hx.1; omega, by have := hx.2; omega⟩
  | _ => trivial

/-! ### The operations -/

theorem fixL_eq {prec : Nat} (hp : 1 ≤ prec) (m : Rounding) {x : Dec} (hx : Within 950000 x) : fixL prec m x = .ok (fix prec m x) := by
  cases x with
  | inf n => rfl
  | nan => rfl
  | fin neg c e =>
    obtain ⟨h1, h2⟩ := hx
    have hpos := ndig_pos c
    rw [fixL, fix]
    by_cases hc : c = 0
    · subst hc
      rw [if_pos rfl, ndig_zero, if_pos hp]
      have h3 : min (max e (etiny prec)) emax = e := by
        rw [ndig_zero] at h2
        unfold etiny emax
        omega
      rw [h3]
    · rw [if_neg hc]
      dsimp only
      have e1 : ¬ etop prec < ndig c + e - prec := by unfold etop emax; omega
      have e2 : ¬ (ndig c + e - prec < etiny prec) := by unfold etiny emax; omega
      rw [if_neg e1, if_neg e2]
      by_cases h : ndig c ≤ prec
      · rw [if_pos h, if_neg (by omega)]
      · have e3 : ((ndig c : Int) + e - prec - e).toNat = ndig c - prec := by omega
        have e4 : ¬ ((ndig c : Int) + e - (ndig c + e - prec) < 0) := by omega
        rw [if_neg h, if_pos (by omega), e3]
        simp only [if_neg e4]
        by_cases hq : prec < ndig (roundOff m neg c (ndig c - prec))
        · rw [if_pos hq, if_pos hq]
          dsimp only
          rw [if_neg (by unfold etop emax; omega)]
          congr 2
          omega
        · rw [if_neg hq, if_neg hq]
          dsimp only
          rw [if_neg e1]
          congr 2
          omega

theorem fix_within {prec : Nat} (hp : 1 ≤ prec) (m : Rounding) {B : Int} {x : Dec} (hx : Within B x) : Within (B + 1) (fix prec m x) := by
  cases x with
  | inf n => trivial
  | nan => trivial
  | fin neg c e =>
    obtain ⟨h1, h2⟩ := hx
    rw [fix]
    by_cases h : ndig c ≤ prec
    · rw [if_pos h]; exact ⟨by omega, by omega⟩
    · rw [if_neg h]
      dsimp only
      by_cases hq : prec < ndig (roundOff m neg c (ndig c - prec))
      · rw [if_pos hq]
        have hb := (roundOff_le_succ m neg c (ndig c - prec)).2
        have hlt : c / 10 ^ (ndig c - prec) < 10 ^ prec := by
          rw [Nat.div_lt_iff_lt_mul (by positivity), ← pow_add, show prec + (ndig c - prec) = ndig c by omega]
          exact lt_pow_ndig c
        have h10 : 1 < 10 ^ prec := Nat.one_lt_pow (by omega) (by norm_num)
        have hd : ndig (roundOff m neg c (ndig c - prec) / 10) ≤ prec := by
          rw [ndig_le_iff _ _ hp]
          omega
        exact ⟨by omega, by omega⟩
      · rw [if_neg hq]
        exact ⟨by omega, by omega⟩

theorem reduceDyadic_le (m k : Nat) : (reduceDyadic m k).1 ≤ m ∧ (reduceDyadic m k).2 ≤ k := by
  induction k generalizing m with
  | zero => simp [reduceDyadic]
  | succ k ih =>
    rw [reduceDyadic]
    split
    · have := ih (m / 2)
      have h2 : m / 2 ≤ m := Nat.div_le_self m 2
      exact ⟨by omega, by omega⟩
    · simp

theorem ofFloat_within {x : PyFloat} (hx : IsDoubleFloat x) : Within 1100 (Dec.ofFloat x) := by
  cases x with
  | inf n => trivial
  | nan => trivial
  | fin neg m e =>
    obtain ⟨h1, h2, h3⟩ := hx
    unfold Dec.ofFloat
    dsimp only
    split_ifs with h
    · refine ⟨by norm_num, ?_⟩
      have hd : ndig (m * 2 ^ e.toNat) ≤ 1024 := by
        rw [ndig_le_iff _ _ (by norm_num)]
        calc m * 2 ^ e.toNat < 2 ^ 53 * 2 ^ e.toNat := Nat.mul_lt_mul_of_pos_right h1 (by positivity)
          _ = 2 ^ (53 + e.toNat) := (pow_add 2 53 _).symm
          _ ≤ 2 ^ 1024 := Nat.pow_le_pow_right (by norm_num) (by omega)
          _ ≤ 10 ^ 1024 := Nat.pow_le_pow_left (by norm_num) _
      omega
    · obtain ⟨ha, hb⟩ := reduceDyadic_le m (-e).toNat
      generalize reduceDyadic m (-e).toNat = r at ha hb ⊢
      obtain ⟨n, k⟩ := r
      dsimp only at ha hb ⊢
      have hd : ndig (n * 5 ^ k) ≤ 53 + k := by
        rw [ndig_le_iff _ _ (by omega)]
        calc n * 5 ^ k < 2 ^ 53 * 5 ^ k := Nat.mul_lt_mul_of_pos_right (by omega) (by positivity)
          _ ≤ 10 ^ 53 * 10 ^ k := Nat.mul_le_mul (Nat.pow_le_pow_left (by norm_num) _) (Nat.pow_le_pow_left (by norm_num) _)
          _ = 10 ^ (53 + k) := (pow_add 10 53 _).symm
      exact ⟨by omega, by omega⟩

theorem posL_eq {prec : Nat} (hp : 1 ≤ prec) (m : Rounding) {x : Dec} (hx : Within 950000 x) : posL prec m x = .ok (pos prec m x) := by
  cases x with
  | fin neg c e => exact fixL_eq (x := .fin _ c e) hp m hx
  | _ => rfl

theorem pos_within {prec : Nat} (hp : 1 ≤ prec) (m : Rounding) {B : Int} {x : Dec} (hx : Within B x) : Within (B + 1) (pos prec m x) := by
  cases x with
  | fin neg c e => exact fix_within (x := .fin _ c e) hp m hx
  | _ => trivial

theorem quantizeL_eq (m : Rounding) {x y : Dec} (hx : Within 900000 x) (hy : Within 900000 y) : quantizeL m x y = quantize m x y := by
  rcases x with ⟨neg, c, e⟩ | n | _ <;> rcases y with ⟨neg', c', e'⟩ | n' | _ <;> try rfl
  obtain ⟨h1, h2⟩ := hx
  obtain ⟨h3, h4⟩ := hy
  have hp' := ndig_pos c'
  rw [quantizeL, quantize, if_neg (by unfold etiny emax ctxPrec; omega)]
  by_cases hc : c = 0
  · rw [if_pos hc, if_pos hc, fixL_eq (by decide) m (x := .fin neg 0 e') ⟨by omega, by rw [ndig_zero]; omega⟩, fix, if_pos (by rw [ndig_zero]; decide)]
  · rw [if_neg hc, if_neg hc, if_neg (by unfold emax; omega)]
    by_cases hov : (ctxPrec : Int) < (e + ndig c - 1) - e' + 1
    · rw [if_pos hov, if_pos hov]
    · rw [if_neg hov, if_neg hov]
      have hr : ∃ n₁ c₁, rescale m neg c e e' = .fin n₁ c₁ e' := by
        unfold rescale
        split_ifs <;> exact ⟨_, _, rfl⟩
      obtain ⟨n₁, c₁, hr⟩ := hr
      rw [hr]
      dsimp only
      by_cases hd : ctxPrec < ndig c₁
      · rw [if_pos hd, if_pos hd]
        split <;> rfl
      · unfold ctxPrec at hd
        rw [if_neg (by simp only [adjusted, emax]; omega), if_neg (by unfold ctxPrec; omega), if_neg (by unfold ctxPrec; omega),
          fixL_eq (by decide) m (x := .fin n₁ c₁ e') ⟨by omega, by omega⟩, fix, if_pos (by unfold ctxPrec; omega)]

theorem quantize_within {m : Rounding} {B : Int} {x y z : Dec} (hy : Within B y) (h : quantize m x y = .ok z) : Within (B + 28) z := by
  rcases x with ⟨neg, c, e⟩ | n | _ <;> rcases y with ⟨neg', c', e'⟩ | n' | _ <;> try (first | (cases h; trivial) | cases h)
  obtain ⟨h3, h4⟩ := hy
  have hp' := ndig_pos c'
  rw [quantize] at h
  split_ifs at h with hc hov
  · cases h
    exact ⟨by omega, by rw [ndig_zero]; omega⟩
  · have hr : ∃ n₁ c₁, rescale m neg c e e' = .fin n₁ c₁ e' := by
      unfold rescale
      split_ifs <;> exact ⟨_, _, rfl⟩
    obtain ⟨n₁, c₁, hr⟩ := hr
    rw [hr] at h
    dsimp only at h
    split_ifs at h with hd
    cases h
    unfold ctxPrec at hd
    exact ⟨by omega, by omega⟩

theorem scalebL_eq {k : Int} (hk : |k| ≤ 400000) {x : Dec} (hx : Within 500000 x) : scalebL k x = .ok (scaleb k x) := by
  rw [abs_le] at hk
  cases x with
  | nan => rfl
  | inf n => rw [scalebL, if_neg (by unfold emax ctxPrec; omega)]; rfl
  | fin neg c e =>
    rw [scalebL, if_neg (by unfold emax ctxPrec; omega), fixL_eq (by decide) _ (x := .fin neg c (e + k)) ⟨by have := hx.1; omega, by have := hx.2; omega⟩]
    rfl

/-! ### `create_decimal` and `decimalize` -/

/-- **C144** `create_decimal` of a float: the limits are never reached, for any number of digits. -/
theorem C144_create_decimal {x : PyFloat} (hx : IsDoubleFloat x) (digits : Nat) (m : Rounding) : createDecimalL x digits m = createDecimal x digits m := by
  unfold createDecimalL createDecimal
  refine bind_congr_py fun _ h => ?_
  rw [pyAssert_eq_ok, decide_eq_true_eq] at h
  exact posL_eq h m ((ofFloat_within hx).mono (by norm_num))

theorem createDecimal_within {x : PyFloat} (hx : IsDoubleFloat x) {digits : Nat} {m : Rounding} {y : Dec} (h : createDecimal x digits m = .ok y) :
    Within 1101 y := by
  unfold createDecimal at h
  rw [bind_ok_iff] at h
  obtain ⟨_, h1, h2⟩ := h
  rw [pyAssert_eq_ok, decide_eq_true_eq] at h1
  cases h2
  exact pos_within h1 m (ofFloat_within hx)

/-- **C144** One cell of `decimalize`: for floats the limits are never reached, whatever the limit on error bars and the numbers of digits (below
900000 for the p-value). -/
theorem C144_decimalize_cell {o : DecimalizeOpts} (ho : o.pvalDigits < 900000) (ebLimit : Option Int) {x : FpCell} (hm : IsDoubleFloat x.mean)
    (he : IsDoubleFloat x.err) (hp : IsDoubleFloat x.pval) : decimalizeCellL o ebLimit x = decimalizeCell o ebLimit x := by
  unfold decimalizeCellL decimalizeCell
  rw [C144_create_decimal he, C144_create_decimal hm]
  refine bind_congr_py fun EB hEB => bind_congr_py fun _ _ => ?_
  have hw : ∀ clip, Within 1101 (if EB.isNan || Dec.leNum EB clip then EB else .inf false) := by
    intro clip
    split_ifs
    · exact createDecimal_within he hEB
    · trivial
  dsimp only
  rw [quantizeL_eq .halfUp ((ofFloat_within hm).mono (by norm_num)) ((hw _).mono (by norm_num)),
    quantizeL_eq .ceiling ((ofFloat_within hp).mono (by norm_num)) (y := decimal1ek (.int (-(o.pvalDigits : Int)))) ⟨by omega, by
      have : ndig 1 = 1 := rfl
      omega⟩]
  rfl

theorem decimalizeCell_within {o : DecimalizeOpts} {ebLimit : Option Int} {x : FpCell} (hm : IsDoubleFloat x.mean) (he : IsDoubleFloat x.err) {y : DecCell}
    (h : decimalizeCell o ebLimit x = .ok y) : Within 1200 y.mean := by
  unfold decimalizeCell at h
  simp only [bind_ok_iff] at h
  obtain ⟨EB, hEB, _, -, mu, hmu, p, -, _, -, hy⟩ := h
  cases hy
  split_ifs at hmu
  all_goals first
    | exact (createDecimal_within hm hmu).mono (by norm_num)
    | exact (quantize_within (createDecimal_within he hEB) hmu).mono (by norm_num)
    | skip
  all_goals simp_all [Dec.isFinite]

/-- **C144** `decimalize` of a table of floats never reaches the limits. -/
theorem C144_decimalize {κ : Type} [LinearOrder κ] {o : DecimalizeOpts} (ho : o.pvalDigits < 900000) (ebLimit : κ → Option Int) {t : Table κ FpCell}
    (ht : DoubleTable t) : decimalizeL o ebLimit t = decimalize o ebLimit t := by
  unfold decimalizeL decimalize
  refine bind_congr_py fun _ _ => mapM_congr _ _ _ fun k _ => ?_
  congr 1
  refine mapM_congr _ _ _ fun m _ => ?_
  rw [C144_decimalize_cell ho _ (ht m k).1 (ht m k).2.1 (ht m k).2.2]

theorem decimalize_within {κ : Type} [LinearOrder κ] {o : DecimalizeOpts} {ebLimit : κ → Option Int} {t : Table κ FpCell}
    (ht : DoubleTable t) {d : List (κ × List (κ × DecCell))} (h : decimalize o ebLimit t = .ok d) :
    ∀ mc ∈ d, ∀ x ∈ mc.2, Within 1200 x.2.mean := by
  unfold decimalize at h
  rw [bind_ok_iff] at h
  obtain ⟨_, -, h⟩ := h
  rw [mapM_ok_iff] at h
  intro mc hmc x hx
  obtain ⟨k, -, hk⟩ := forall₂_mem_snd h hmc
  rw [bind_ok_iff] at hk
  obtain ⟨col, hcol, hk⟩ := hk
  cases hk
  rw [mapM_ok_iff] at hcol
  obtain ⟨m, -, hm⟩ := forall₂_mem_snd hcol hx
  rw [bind_ok_iff] at hm
  obtain ⟨c, hc, hm⟩ := hm
  cases hm
  exact decimalizeCell_within (ht m k).1 (ht m k).2.1 hc

/-! ### `print_estimate` and `find_shift` -/

/-- **C144** `print_estimate` with a shift and clips of moderate size never reaches the limits. -/
theorem C144_print_estimate {mu : Dec} (EB : Dec) {shift : Int} {lo hi : Dec} (nff : NonFiniteFmt) (hs : |shift| ≤ 400000) (hmu : Within 500000 mu)
    (hlo : Within 500000 lo) (hhi : Within 500000 hi) : printEstimateL mu EB shift lo hi nff = printEstimate mu EB shift lo hi nff := by
  unfold printEstimateL printEstimate
  rw [scalebL_eq hs hlo, scalebL_eq hs hhi]
  refine bind_congr_py fun _ _ => bind_congr_py fun _ _ => bind_congr_py fun _ _ => ?_
  split
  · rfl
  split
  · rfl
  cases mu with
  | nan => rfl
  | inf n => rfl
  | fin neg c e =>
    dsimp only
    rw [scalebL_eq hs hmu]
    rfl

theorem getShiftRange_bounds {xs : List Dec} {m B a b : Int} {s : Bool} (hx : ∀ x ∈ xs, Within B x) (h : getShiftRange xs m = .ok (a, b, s)) :
    -(B + m) ≤ a ∧ b ≤ B + m := by
  unfold getShiftRange at h
  simp only [bind_ok_iff] at h
  obtain ⟨_, hlen, _, hm, _, hfin, u, hu, _, -, v, hv, _, -, _, -, _, -, h⟩ := h
  cases h
  have hlen := of_decide_eq_true ((pyAssert_eq_ok _).1 hlen)
  have hm := of_decide_eq_true ((pyAssert_eq_ok _).1 hm)
  have hfin := (pyAssert_eq_ok _).1 hfin
  have hne : xs ≠ [] := by
    rintro rfl
    simp at hlen
  obtain ⟨u', hu', humem, -⟩ := pyMin_spec (xs.map fun mu => -(expOf mu)) (by simpa using hne)
  obtain ⟨v', hv', hvmem, -⟩ := pyMin_spec (xs.map fun mu => -(Dec.adjusted mu)) (by simpa using hne)
  rw [hu] at hu'; cases hu'
  rw [hv] at hv'; cases hv'
  obtain ⟨x, hxm, rfl⟩ := List.mem_map.1 humem
  obtain ⟨y, hym, rfl⟩ := List.mem_map.1 hvmem
  have hxw := hx x hxm
  have hyw := hx y hym
  have hxf := List.all_eq_true.1 hfin x hxm
  have hyf := List.all_eq_true.1 hfin y hym
  obtain ⟨n, c, e, rfl⟩ : ∃ n c e, x = .fin n c e := by cases x <;> simp_all [Dec.isFinite]
  obtain ⟨n', c', e', rfl⟩ : ∃ n c e, y = .fin n c e := by cases y <;> simp_all [Dec.isFinite]
  obtain ⟨w1, w2⟩ := hxw
  obtain ⟨w3, w4⟩ := hyw
  have p1 := ndig_pos c
  have p2 := ndig_pos c'
  obtain ⟨⟨-, f1⟩, f2⟩ := C17_floor_mod (-(expOf (.fin n c e))) m hm
  obtain ⟨⟨-, g1⟩, -⟩ := C17_ceil_mod (-(Dec.adjusted (.fin n' c' e'))) m hm
  have f3 : -(expOf (.fin n c e)) - m ≤ floorMod (-(expOf (.fin n c e))) m := by
    unfold floorMod
    rw [Int.fdiv_eq_ediv_of_nonneg _ (by omega)]
    have := Int.lt_ediv_add_one_mul_self (-(expOf (.fin n c e))) (show 0 < m by omega)
    rw [add_mul, one_mul] at this
    omega
  simp only [expOf, Dec.adjusted] at *
  constructor
  · split_ifs <;> omega
  · omega

theorem findShiftStepL_eq {pairs : List (Dec × Dec)} {m : Int} (hp : ∀ p ∈ pairs, Within 500000 p.1) (best : Option (Int × Nat)) {shift : Int}
    (hs : |shift| ≤ 400000) : findShiftStepL pairs m best shift = findShiftStep pairs m best shift := by
  unfold findShiftStepL findShiftStep
  split
  · rfl
  · congr 1
    refine mapM_congr _ _ _ fun p hpm => ?_
    rw [C144_print_estimate p.2 _ hs (hp p hpm) (lo := .inf true) (hi := .inf false) trivial trivial]

theorem foldlM_congr_py {α σ : Type} {f g : σ → α → Py σ} {l : List α} (h : ∀ a ∈ l, ∀ s, f s a = g s a) (s : σ) : l.foldlM f s = l.foldlM g s := by
  induction l generalizing s with
  | nil => rfl
  | cons a l ih =>
    rw [List.foldlM_cons, List.foldlM_cons, h a (by simp)]
    exact bind_congr_py fun b _ => ih (fun x hx => h x (by simp [hx])) b

theorem findShift_fold_mem {pairs : List (Dec × Dec)} {m : Int} {L : List Int} {s : Option (Int × Nat)} {r : Int × Nat}
    (h : L.foldlM (findShiftStep pairs m) s = .ok (some r)) : s = some r ∨ r.1 ∈ L := by
  induction L generalizing s with
  | nil => cases h; exact .inl rfl
  | cons a L ih =>
    rw [List.foldlM_cons, bind_ok_iff] at h
    obtain ⟨s', h1, h2⟩ := h
    rcases ih h2 with rfl | h3
    · unfold findShiftStep at h1
      split at h1
      · cases h1; exact .inl rfl
      · simp only [bind_ok_iff] at h1
        obtain ⟨_, -, w, -, h1⟩ := h1
        cases s with
        | none => cases h1; exact .inr (by simp)
        | some q =>
          dsimp only at h1
          split at h1
          · cases h1; exact .inr (by simp)
          · cases h1; exact .inl rfl
    · exact .inr (by simp [h3])

/-- **C144** `find_shift` with a step of moderate size never reaches the limits. -/
theorem C144_find_shift {sortAbs : List Int → List Int} (hsort : ∀ l, (sortAbs l).Perm l) {means : List Dec} (errs : List Dec) {m : Int} (hm : m ≤ 300000)
    (hx : ∀ x ∈ means, Within 1200 x) : findShiftL sortAbs means errs m = findShift sortAbs means errs m := by
  unfold findShiftL findShift
  refine bind_congr_py fun _ _ => bind_congr_py fun _ _ => bind_congr_py fun _ _ => ?_
  split
  · rfl
  · refine bind_congr_py fun r hr => ?_
    obtain ⟨a, b, s⟩ := r
    dsimp only
    have hb := getShiftRange_bounds hx hr
    have hf := foldlM_congr_py (f := findShiftStepL (means.zip errs) m) (g := findShiftStep (means.zip errs) m) (l := sortAbs (pyRangeIncl a b))
      (fun k hk best => by
        have hk' := (mem_pyRangeIncl a b k).1 ((hsort _).mem_iff.1 hk)
        exact findShiftStepL_eq (fun p hp => (hx p.1 (List.of_mem_zip hp).1).mono (by norm_num)) best (abs_le.2 ⟨by omega, by omega⟩)) none
    rw [hf]
    rfl

theorem findShift_bound {sortAbs : List Int → List Int} (hsort : ∀ l, (sortAbs l).Perm l) {means errs : List Dec} {m k : Int} (hm : m ≤ 300000)
    (hx : ∀ x ∈ means, Within 1200 x) (h : findShift sortAbs means errs m = .ok k) : |k| ≤ 400000 := by
  unfold findShift at h
  simp only [bind_ok_iff] at h
  obtain ⟨_, -, _, -, _, -, h⟩ := h
  split at h
  · cases h; norm_num
  · rw [bind_ok_iff] at h
    obtain ⟨⟨a, b, s⟩, hr, h⟩ := h
    dsimp only at h
    rw [bind_ok_iff] at h
    obtain ⟨best, hbest, h⟩ := h
    have hb := getShiftRange_bounds hx hr
    cases best with
    | none => cases h
    | some r =>
      obtain ⟨k', w⟩ := r
      cases h
      rcases findShift_fold_mem hbest with h0 | h0
      · cases h0
      · have hk' := (mem_pyRangeIncl a b k).1 ((hsort _).mem_iff.1 h0)
        exact abs_le.2 ⟨by omega, by omega⟩

/-! ### `format_table` and `just_format_it` -/

theorem limit_within (l : Option Int) (h : LimitWithin l) (neg : Bool) : Within 500000 (decimal1ek (expoOfLimit l) neg) := by
  cases l with
  | none => trivial
  | some k =>
    have h' := abs_le.1 (show |k| ≤ 300000 from h)
    have : ndig 1 = 1 := rfl
    exact ⟨by omega, by omega⟩

/-- **C144** One column of `format_table` never reaches the limits. -/
theorem C144_format_column {κ : Type} {sortAbs : List Int → List Int} (hsort : ∀ l, (sortAbs l).Perm l) {o : FormatOpts κ} {metric : κ}
    (hm : ∀ m, o.shiftMod = some m → m ≤ 300000) (hlo : LimitWithin (o.crapMin metric)) (hhi : LimitWithin (o.crapMax metric)) {col : List DecCell}
    (hc : ∀ x ∈ col, Within 1200 x.mean) : formatColumnL sortAbs o metric col = formatColumn sortAbs o metric col := by
  unfold formatColumnL formatColumn
  refine bind_congr_py fun _ _ => bind_congr_py fun idx _ => bind_congr_py fun _ _ => ?_
  have hk : ∀ x ∈ ((((col.zip idx).filter fun p => p.2).map fun p => p.1).map fun x => x.mean), Within 1200 x := by
    intro x hx
    obtain ⟨y, hy, rfl⟩ := List.mem_map.1 hx
    obtain ⟨p, hp, rfl⟩ := List.mem_map.1 hy
    exact hc p.1 (List.of_mem_zip (List.mem_filter.1 hp).1).1
  have hrows : ∀ shift : Int, |shift| ≤ 400000 → (col.mapM fun x => do
      let est ← printEstimateL x.mean x.err shift (decimal1ek (expoOfLimit (o.crapMin metric)) true) (decimal1ek (expoOfLimit (o.crapMax metric)) false) o.nff
      let p ← printPval x.pval o.nff
      return (est, p)) = (col.mapM fun x => do
      let est ← printEstimate x.mean x.err shift (decimal1ek (expoOfLimit (o.crapMin metric)) true) (decimal1ek (expoOfLimit (o.crapMax metric)) false) o.nff
      let p ← printPval x.pval o.nff
      return (est, p)) := by
    intro shift hs
    refine mapM_congr _ _ _ fun x hx => ?_
    rw [C144_print_estimate x.err _ hs ((hc x hx).mono (by norm_num)) (limit_within _ hlo _) (limit_within _ hhi _)]
  cases hmod : o.shiftMod with
  | none =>
    dsimp only
    refine bind_congr_py fun shift hs => ?_
    cases hs
    rw [hrows 0 (by norm_num)]
  | some m =>
    dsimp only
    rw [C144_find_shift hsort _ (hm m hmod) hk]
    refine bind_congr_py fun shift hs => ?_
    rw [hrows shift (findShift_bound hsort (hm m hmod) hk hs)]

/-- **C144** `just_format_it` of a table of floats never reaches the limits of decimal arithmetic on exponents: with them it returns, or raises, what
the model with unbounded exponents says; for all limits on error bars, clips up to `10^±300000` and shift steps up to 300000. -/
theorem C144_just_format_it {sortAbs : List Int → List Int} (hsort : ∀ l, (sortAbs l).Perm l) (ebLimit : Str → Option Int) {o : FormatOpts Str}
    (ud : Str → Option Str) (usePrefix useTex : Bool) {t : Table Str FpCell} (ht : DoubleTable t) (hm : ∀ m, o.shiftMod = some m → m ≤ 300000)
    (hlo : ∀ k, LimitWithin (o.crapMin k)) (hhi : ∀ k, LimitWithin (o.crapMax k)) :
    justFormatItL sortAbs ebLimit o ud usePrefix useTex t = justFormatIt sortAbs ebLimit o ud usePrefix useTex t := by
  unfold justFormatItL justFormatIt
  rw [C144_decimalize (by decide) _ ht]
  refine bind_congr_py fun d hd => bind_congr_py fun _ _ => bind_congr_py fun _ _ => ?_
  congr 1
  unfold formatColsL formatCols
  refine mapM_congr _ _ _ fun mc hmc => ?_
  obtain ⟨mc', hmc', rfl⟩ := List.mem_map.1 hmc
  rw [C144_format_column hsort (o := { o with pad := true }) hm (hlo _) (hhi _) (fun x hx => by
    obtain ⟨y, hy, rfl⟩ := List.mem_map.1 hx
    exact decimalize_within ht hd mc' hmc' y hy)]

/-! ### Concrete cases -/

/-- The smallest and the largest float. -/
theorem small_float : IsDoubleFloat (.fin false 1 (-1074)) ∧ IsDoubleFloat (.fin true (2 ^ 53 - 1) 971) :=
  ⟨⟨by norm_num, by norm_num, by norm_num⟩, ⟨by norm_num, by norm_num, by norm_num⟩⟩

example : createDecimalL (.fin false 1 (-1074)) 5 .halfUp = .ok (.fin false 49407 (-328)) ∧
    createDecimalL (.fin true (2 ^ 53 - 1) 971) 5 .halfUp = .ok (.fin true 17977 304) :=
  ⟨(C144_create_decimal small_float.1 _ _).trans (by decide +kernel), (C144_create_decimal small_float.2 _ _).trans (by decide +kernel)⟩

theorem float_one_two : IsDoubleFloat (.fin false 1 (-1)) ∧ IsDoubleFloat (.fin false 1 0) ∧ IsDoubleFloat (.fin false 1 (-10)) ∧
    IsDoubleFloat (.fin false 1 (-14)) :=
  ⟨⟨by norm_num, by norm_num, by norm_num⟩, ⟨by norm_num, by norm_num, by norm_num⟩, ⟨by norm_num, by norm_num, by norm_num⟩,
    ⟨by norm_num, by norm_num, by norm_num⟩⟩

/-- A time of `2^-10` seconds is shown in microseconds. -/
example : justFormatItL (fun l => l.insertionSort fun a b => |a| ≤ |b|) (fun _ => none)
    { shiftMod := some 3, crapMax := fun _ => some 5 } (fun _ => some "s".toList) true false
    ⟨["A".toList], ["run_time".toList], fun _ _ => ⟨.fin false 1 (-10), .fin false 1 (-14), .fin false 1 (-14)⟩⟩ =
    .ok ⟨["run time (us)".toList, "p".toList],
      [("run_time".toList, 6, [("977(62)".toList, "<0.0001".toList)])]⟩ :=
  (C144_just_format_it (o := { shiftMod := some 3, crapMax := fun _ => some 5 }) (fun l => (sortsByAbs_insertionSort l).1) _ _ _ _ (fun _ _ => ⟨float_one_two.2.2.1, float_one_two.2.2.2, float_one_two.2.2.2⟩)
    (fun m h => by cases h; norm_num) (fun _ => trivial) (fun _ => show |(5 : Int)| ≤ 300000 by norm_num)).trans (by decide +kernel)

/-- A mean of 1/2 cannot be shown to the last place of an error bar of `2^-1074`, with or without the limits. -/
example : justFormatItL (fun l => l.insertionSort fun a b => |a| ≤ |b|) (fun _ => none) { shiftMod := some 3 } (fun _ => none) false false
    ⟨["m".toList], ["NLL".toList], fun _ _ => ⟨.fin false 1 (-1), .fin false 1 (-1074), .fin false 1 0⟩⟩ = .error .invalidOperation :=
  (C144_just_format_it (o := { shiftMod := some 3 }) (fun l => (sortsByAbs_insertionSort l).1) _ _ _ _ (fun _ _ => ⟨float_one_two.1, small_float.1, float_one_two.2.1⟩)
    (fun m h => by cases h; norm_num) (fun _ => trivial) (fun _ => trivial)).trans (by decide +kernel)

/-- Single steps of the first table. -/
example : decimalizeCellL {} none ⟨.fin false 1 (-10), .fin false 1 (-14), .fin false 1 (-14)⟩ = .ok ⟨.fin false 977 (-6), .fin false 62 (-6), .fin false 1 (-4)⟩ ∧
    printEstimateL (.fin false 977 (-6)) (.fin false 62 (-6)) 6 = .ok "977(62)".toList ∧
    findShiftL (fun l => l.insertionSort fun a b => |a| ≤ |b|) [.fin false 977 (-6)] [.fin false 62 (-6)] 3 = .ok 6 ∧
    formatColumnL (κ := Str) (fun l => l.insertionSort fun a b => |a| ≤ |b|) { shiftMod := some 3 } "t".toList
      [⟨.fin false 977 (-6), .fin false 62 (-6), .fin false 1 (-4)⟩] = .ok (6, [("977(62)".toList, "<0.0001".toList)]) := by
  have hw : Within 1200 (.fin false 977 (-6)) := by
    have : ndig 977 = 3 := by decide
    exact ⟨by omega, by omega⟩
  refine ⟨(C144_decimalize_cell (by decide) _ float_one_two.2.2.1 float_one_two.2.2.2 float_one_two.2.2.2).trans (by decide +kernel),
    (C144_print_estimate _ _ (by norm_num) (hw.mono (by norm_num)) (lo := .inf true) (hi := .inf false) trivial trivial).trans (by decide +kernel),
    (C144_find_shift (fun l => (sortsByAbs_insertionSort l).1) _ (by norm_num) (by simpa using hw)).trans (by decide +kernel),
    (C144_format_column (o := { shiftMod := some 3 }) (fun l => (sortsByAbs_insertionSort l).1) (fun m h => by cases h; norm_num) trivial trivial
      (by simpa using hw)).trans (by decide +kernel)⟩

/-- The limits are there: a shift by two million places is refused, `10^999999` times 100 overflows, and the smallest number divided by 100 becomes zero. -/
example : scalebL 2000055 (.fin false 1 0) = .error .invalidOperation ∧ scalebL 2 (.fin false 1 999999) = .error .decimalOverflow ∧
    scalebL (-2) (.fin false 1 (-1000026)) = .ok (.fin false 0 (-1000026)) ∧ scaleb (-2) (.fin false 1 (-1000026)) = .fin false 1 (-1000028) := by
  decide

end Mlp.Props
