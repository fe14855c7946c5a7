import Verif.Model.Mlpaper

/-!
# Losses in other units

Losses measured in other units: multiplied by a positive factor and shifted, for each metric its own.
-/

namespace Mlp.Spec
open Mlp.Paper

noncomputable section

/-- A float in other units. -/
def reFlt (c d : ℝ) : Flt ℝ → Flt ℝ
  | .fin x => .fin (c * x + d)
  | v => v

/-- A loss table in other units: those of the metric `m` are multiplied by `c m` and shifted by `d m`. -/
def reTable (c d : Str → ℝ) (tbl : LossTable) : LossTable :=
  { tbl with cols := tbl.cols.map fun col => (col.1, col.2.map (reFlt (c col.1.1) (d col.1.1))) }

/-- The limits in other units. -/
def reLimits (c d : Str → ℝ) (limits : List (Str × (Flt ℝ × Flt ℝ))) : List (Str × (Flt ℝ × Flt ℝ)) :=
  limits.map fun p => (p.1, (reFlt (c p.1) (d p.1) p.2.1, reFlt (c p.1) (d p.1) p.2.2))

/-- A cell in other units: the mean is multiplied and shifted, the error bar is multiplied, the p-value has no unit. -/
def reCell (c d : ℝ) (t : Flt ℝ × Flt ℝ × Flt ℝ) : Flt ℝ × Flt ℝ × Flt ℝ := (reFlt c d t.1, reFlt c 0 t.2.1, t.2.2)

end
end Mlp.Spec
