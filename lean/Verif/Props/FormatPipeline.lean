import Verif.Props.FormatFloats
import Verif.Props.TableDouble

/-! # Property C118: from the losses to the text -/

namespace Mlp.Props
open Mlp Mlp.Sciprint Mlp.Paper Mlp.PaperR Mlp.PerfR Mlp.BootR Mlp.Boot Mlp.Spec Mlp.Lemmas Mlp.Round

/-- The float `x` is the number `v`. -/
def SameNumber : PyFloat → Flt ℝ → Prop
  | .nan, .nan => True
  | .inf false, .pinf => True
  | .inf true, .ninf => True
  | .fin n m e, .fin v => ((fval n m e : ℚ) : ℝ) = v
  | _, _ => False

/-- The table of floats handed to `just_format_it` holds the numbers of the summary `out`. -/
def SameTable (t : Table Str FpCell) (tbl : LossTable) (out : List (List (Flt ℝ × Flt ℝ × Flt ℝ))) : Prop :=
  t.methods = tbl.methods ∧ t.metrics = tbl.metrics ∧
  List.Forall₂ (fun metric row => List.Forall₂ (fun method cell =>
    SameNumber (t.cell method metric).mean cell.1 ∧ SameNumber (t.cell method metric).err cell.2.1 ∧
    SameNumber (t.cell method metric).pval cell.2.2) tbl.methods row) tbl.metrics out

variable {L : Lib ℝ} (hL : GoodLib L) {u : ℝ} (hu : 0 ≤ u) (he : RelError u L.rnd) {m : Nat}
  (hm : HalvesExact L.rnd m) (hm1 : 1000 ≤ m)
include hL hu he hm hm1

/-- **C118, from the losses to the text.**  With `pairwise_CI`, finite losses within valid limits, at least one row, a known
method and a confidence in (0,1), `loss_summary_table` computes a table in floating point arithmetic, and `just_format_it` with
a shift modulus of at least 1 turns it into a text, TeX or plain, whatever the limits, units and outcomes of the
bootstrap draws, unless an estimate is more than `10^26` times its positive error bar. -/
theorem C118_pipeline {tbl : LossTable} {refMethod : Str}
    {c : ℝ} (h0 : 0 < c) (h1 : c < 1) {methodEB : EBMethod} (hme : methodEB ≠ .other)
    {limits : List (Str × (Flt ℝ × Flt ℝ))} {draws : Str → Str → Draws}
    (hd : methodEB = .boot → ∀ metric method, ValidDraws tbl.nrows 1000 (draws metric method).eb)
    (href : refMethod ∈ tbl.methods) (hrows : 1 ≤ tbl.nrows) (hn : tbl.nrows * u ≤ 1 / 1000000) (hmetrics : tbl.metrics ≠ [])
    (hfin : ∀ metric ∈ tbl.metrics, ∃ lower upper, LimitsOf limits metric lower upper ∧
      ValidLimits lower upper ∧ ∀ method ∈ tbl.methods, ∃ xs : List ℝ,
        HasLoss tbl metric method (finVec xs) ∧ xs.length = tbl.nrows ∧ Within lower upper xs) :
    ∃ out, lossSummaryTableR L tbl refMethod true (.fin c) methodEB limits draws = .ok out ∧
      ∀ t, SameTable t tbl out →
        (∀ metric ∈ t.metrics, ∀ method ∈ t.methods, ∀ n m e en em ee, (t.cell method metric).mean = .fin n m e →
          (t.cell method metric).err = .fin en em ee → 0 < fval en em ee → |fval n m e| ≤ 10 ^ 26 * fval en em ee) →
        ∀ sortAbs, SortsByAbs sortAbs → ∀ ebLimit (o : FormatOpts Str) k, o.shiftMod = some k → 1 ≤ k →
        ∀ ud usePrefix useTex, ∃ text, justFormatItText sortAbs ebLimit o ud usePrefix useTex t = .ok text := by
  obtain ⟨out, hout, hcells⟩ := C108_table hL hu he hm hm1 h0 h1 hme hd href hrows hn hmetrics hfin
  refine ⟨out, hout, fun t ht hbig sortAbs hsort ebLimit o k hk hk1 ud usePrefix useTex => ?_⟩
  obtain ⟨ht1, ht2, ht3⟩ := ht
  refine C118_floats hsort ebLimit o ud usePrefix useTex t ?_ ?_ ?_ ?_
  · rw [ht1]; exact List.ne_nil_of_mem href
  · rw [ht2]; exact hmetrics
  · intro j hj; rw [hk] at hj; cases hj; exact hk1
  · intro metric hmet method hmeth
    have hb := hbig metric hmet method hmeth
    rw [ht2] at hmet
    rw [ht1] at hmeth
    obtain ⟨row, -, hr1, hr2⟩ := f2_left (forall₂_and.mpr ⟨hcells, ht3⟩) metric hmet
    obtain ⟨cell, -, ⟨⟨xs, -, hmean⟩, hc1, hc2⟩, hs1, hs2, hs3⟩ := f2_left (forall₂_and.mpr ⟨hr1, hr2⟩) method hmeth
    generalize t.cell method metric = x at *
    obtain ⟨xm, xe, xp⟩ := x
    obtain ⟨cm, ce, cp⟩ := cell
    simp only at *
    subst hmean
    have hns : o.shiftMod ≠ none := by rw [hk]; simp
    -- the estimate
    obtain ⟨n, m, e, rfl⟩ : ∃ n m e, xm = .fin n m e := by
      cases xm with
      | nan => exact absurd hs1 (by simp [SameNumber])
      | inf b => cases b <;> exact absurd hs1 (by simp [SameNumber])
      | fin n m e => exact ⟨n, m, e, rfl⟩
    by_cases hr : method = refMethod
    · obtain ⟨rfl, rfl⟩ := Prod.mk.inj (hc1 hr)
      have hxe : xe = .nan := by
        cases xe with
        | nan => rfl
        | inf b => cases b <;> exact absurd hs2 (by simp [SameNumber])
        | fin _ _ _ => exact absurd hs2 (by simp [SameNumber])
      have hxp : xp = .nan := by
        cases xp with
        | nan => rfl
        | inf b => cases b <;> exact absurd hs3 (by simp [SameNumber])
        | fin _ _ _ => exact absurd hs3 (by simp [SameNumber])
      exact ⟨.inl hxp, n, m, e, rfl, .inl ⟨.inl hxe, fun h => absurd h hns⟩⟩
    · obtain ⟨hne, hge, p, rfl, hp0, hp1⟩ := hc2 hr
      have hgp : GoodP ⟨.fin n m e, xe, xp⟩ := by
        cases xp with
        | nan => exact absurd hs3 (by simp [SameNumber])
        | inf b => cases b <;> exact absurd hs3 (by simp [SameNumber])
        | fin a b c =>
          have hs3' : ((fval a b c : ℚ) : ℝ) = p := hs3
          rw [← hs3'] at hp0 hp1
          exact .inr ⟨a, b, c, rfl, by exact_mod_cast hp0, by exact_mod_cast hp1⟩
      refine ⟨hgp, n, m, e, rfl, ?_⟩
      cases xe with
      | nan =>
        cases ce with
        | nan => exact absurd rfl hne
        | _ => exact absurd hs2 (by simp [SameNumber])
      | inf b =>
        cases b with
        | false => exact .inl ⟨.inr (.inl rfl), fun h => absurd h hns⟩
        | true =>
          cases ce with
          | ninf => exact absurd hge (by simp)
          | _ => exact absurd hs2 (by simp [SameNumber])
      | fin en em ee =>
        cases ce with
        | fin v =>
          have hs2' : ((fval en em ee : ℚ) : ℝ) = v := hs2
          have hge' : 0 ≤ fval en em ee := by
            rw [Flt.fin_le_fin, ← hs2'] at hge
            exact_mod_cast hge
          rcases hge'.eq_or_lt with h | h
          · exact .inl ⟨.inr (.inr ⟨en, em, ee, rfl, .inl h.symm⟩), fun h => absurd h hns⟩
          · by_cases hlim : ∀ k, ebLimit metric = some k → fval en em ee ≤ (10 : ℚ) ^ k
            · exact .inr ⟨en, em, ee, rfl, h, hlim, hb n m e en em ee rfl rfl h, fun h => absurd h hns⟩
            · push Not at hlim
              exact .inl ⟨.inr (.inr ⟨en, em, ee, rfl, .inr hlim⟩), fun h => absurd h hns⟩
        | _ => exact absurd hs2 (by simp [SameNumber])

omit hL hu he hm hm1 in
/-- C118, concrete: the table `exTable` in double precision. -/
example : ∃ out, lossSummaryTableR doubleLib exTable "A".toList true (.fin (19 / 20))
    .t [("L".toList, (Flt.fin 0, Flt.fin 2))] (fun _ _ => ⟨[], []⟩) = .ok out ∧
    ∀ t, SameTable t exTable out →
      (∀ metric ∈ t.metrics, ∀ method ∈ t.methods, ∀ n m e en em ee, (t.cell method metric).mean = .fin n m e →
        (t.cell method metric).err = .fin en em ee → 0 < fval en em ee → |fval n m e| ≤ 10 ^ 26 * fval en em ee) →
      ∃ text, justFormatItText (fun l => l.insertionSort fun a b => |a| ≤ |b|) (fun _ => none) { shiftMod := some 3 }
        (fun _ => none) true true t = .ok text := by
  obtain ⟨out, h, h'⟩ := C118_pipeline doubleLib_good (u := 1 / 2 ^ 53) (by norm_num) binary64_relError binary64_halves (by norm_num)
    (tbl := exTable) (refMethod := "A".toList) (c := 19 / 20) (by norm_num) (by norm_num) (methodEB := .t) (by simp)
    (limits := [("L".toList, (Flt.fin 0, Flt.fin 2))]) (draws := fun _ _ => ⟨[], []⟩) (by intro h; cases h) (by simp [exTable])
    (by simp [exTable]) (by norm_num [exTable]) (by simp [exTable]) (fun metric hm => by
      obtain ⟨lo, hi, a, b, -, -, c⟩ := exTable_hyp metric hm
      exact ⟨lo, hi, a, b, c⟩)
  exact ⟨out, h, fun t ht hb => h' t ht hb _ sortsByAbs_insertionSort _ _ 3 rfl (by norm_num) _ _ _⟩

end Mlp.Props
