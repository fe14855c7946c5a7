import Verif.Lemmas.Quantize
import Verif.Lemmas.PyLemmas

/-! # `decimalize` for one cell, in pure form -/

namespace Mlp
open Spec Sciprint

/-- Error bar after the limit check (lines 352 and 357). -/
def clipErr (lim : Option Int) (eb : Dec) : Dec :=
  if eb.isNan || Dec.leNum eb (match lim with | some k => .fin false 1 k | none => .inf false) then eb
  else .inf false

/-- Mean given the final error bar (lines 359-364). -/
def cellMean (o : DecimalizeOpts) (eb : Dec) (mean : PyFloat) : Py Dec :=
  if eb.isFinite && !eb.isZero then Dec.quantize .halfUp (Dec.ofFloat mean) eb
  else createDecimal mean o.defaultDigits .halfUp

theorem createDecimal_eq (x : PyFloat) (digits : Nat) (m : Rounding) :
    createDecimal x digits m =
      if 1 ≤ digits then .ok (Dec.pos digits m (Dec.ofFloat x)) else .error .assertion := by
  unfold createDecimal
  rw [pyAssert_bind]
  by_cases h : 1 ≤ digits <;> simp [h, pure_eq_ok]

theorem decimalizeCell_eq (o : DecimalizeOpts) (lim : Option Int) (x : FpCell) :
    decimalizeCell o lim x =
      if 1 ≤ o.errDigits then
        let eb0 := Dec.pos o.errDigits .ceiling (Dec.ofFloat x.err)
        if eb0.isNan || Dec.leNum (.ofNat 0) eb0 then do
          let mu ← cellMean o (clipErr lim eb0) x.mean
          let p ← Dec.quantize .ceiling (Dec.ofFloat x.pval) (.fin false 1 (-(o.pvalDigits : Int)))
          if p.isNan || (Dec.leNum (.ofNat 0) p && Dec.leNum p (.ofNat 1)) then
            .ok ⟨mu, clipErr lim eb0, p⟩
          else .error .assertion
        else .error .assertion
      else .error .assertion := by
  unfold decimalizeCell
  rw [createDecimal_eq]
  by_cases h1 : 1 ≤ o.errDigits
  · simp only [h1, if_true, ok_bind, pyAssert_bind]
    cases lim <;> rfl
  · simp [h1, error_bind]

end Mlp
