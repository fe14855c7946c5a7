import Verif.Model.CurveBoot
import Verif.Spec.Boot
import Verif.Spec.Curves
import Verif.Spec.Frames

/-! # Specification vocabulary for bootstrapped curves -/

namespace Mlp.Spec
open Mlp.Util Mlp.Classif Mlp.Boot Mlp.Perf

section
variable {K : Type} [Field K] [LinearOrder K] [IsStrictOrderedRing K] [FloorRing K]

/-- The labels as Booleans: 0 is False, all else is True. -/
def boolLabels (y : LabelVec) : List Bool := y.vals.map fun v => !decide (v = 0)

/-- `s` contains the log-probabilities of label 1. -/
def IsPosScore (p : Mat K) (s : List (Flt K)) : Prop :=
  s.length = p.rows.length ∧ ∀ (i : Nat) (r : List (Flt K)), p.rows[i]? = some r → s[i]? = some (r.getD 1 .nan)

/-- The weights of the replicates: the counts, with `1e-10` in the place of 0. -/
def bootMat (N : Nat) (counts : List (List Nat)) : Mat K :=
  ⟨N, counts.map fun row => row.map fun (c : Nat) => .fin (if c = 0 then 1 / 10000000000 else (c : K))⟩

/-- A set of curves that can be drawn: as many x values as y values, at least two of each, the x values finite and in order, the
y values numbers or `-inf`. -/
structure Drawable (c : Curve K) : Prop where
  rows : c.x.rows.length = c.y.rows.length
  cols : c.x.ncols = c.y.ncols
  two : 2 ≤ c.x.ncols
  xs : ∀ r ∈ c.x.rows, ∃ v : List K, r = finVec v ∧ v.Pairwise (· ≤ ·)
  ys : ∀ r ∈ c.y.rows, ∀ v ∈ r, v ≠ .nan ∧ v ≠ .pinf

/-- Every curve starts at or before the first point of the grid and ends at or after the last. -/
def CoversGrid (c : Curve K) (g : List (Flt K)) : Prop :=
  ∃ first last, g.head? = some first ∧ g.getLast? = some last ∧
    ∀ r ∈ c.x.rows, ∀ a b, r.head? = some a → r.getLast? = some b → a ≤ first ∧ first ≠ .nan ∧ last ≤ b

/-- The areas under the curves for the given labels, scores and weights. -/
def AreaOf (f : CurveF K) (y : List Bool) (s : List (Flt K)) (W : Option (Mat K)) (A : List (Flt K)) : Prop :=
  ∃ c thr, f y s W = .ok (c, thr) ∧ area c.x c.y c.kind = .ok A

/-- The values of the curves on a grid. -/
def CurveAt (other : Interp K) (f : CurveF K) (y : List Bool) (s : List (Flt K)) (W : Option (Mat K)) (grid : List (Flt K))
    (Y : List (List (Flt K))) : Prop :=
  ∃ c thr, f y s W = .ok (c, thr) ∧
    List.Forall₂ (fun xy row => interp1d other grid xy.1 xy.2 c.kind = .ok row) (List.zip c.x.rows c.y.rows) Y

/-- The areas to compare with: those of the reference predictions, or a given number. -/
def RefAreas (f : CurveF K) (y : List Bool) (W : Mat K) (nBoot : Nat) : RefArg K → List (Flt K) → Flt K → Prop
  | .value r, RA, R0 => RA = List.replicate nBoot r ∧ R0 = r
  | .preds q, RA, R0 => ∃ s, IsPosScore q s ∧ AreaOf f y s (some W) RA ∧ RA.length = nBoot ∧ AreaOf f y s none [R0]

/-- Hundred points from 0 to 1 in equal steps. -/
def IsUnitGrid (g : List (Flt K)) : Prop :=
  ∃ xs : List K, g = finVec xs ∧ xs.length = 100 ∧ xs.head? = some 0 ∧ xs.getLast? = some 1 ∧
    ∀ (i : Nat) (a b : K), xs[i]? = some a → xs[i + 1]? = some b → (b - a) * 99 = 1

/-- A curve from 0 to 1: rows with `n` points each, rising in `x` from 0 to 1, where the `y` values are between `lo` and
1; they may be `-inf` only for the kind "previous". -/
structure UnitCurve (lo : Flt K) (n : Nat) (X : List (List K)) (Y : List (List (Flt K))) (kind : Kind) : Prop where
  kind : kind = .previous ∨ kind = .linear ∧ lo = .fin 0
  two : 2 ≤ n
  rows : Y.length = X.length
  xs : ∀ x ∈ X, x.length = n ∧ x.Pairwise (· ≤ ·) ∧ x.head? = some 0 ∧ x.getLast? = some 1
  ys : ∀ v ∈ Y, v.length = n ∧ ∀ u ∈ v, lo ≤ u ∧ u ≤ .fin 1

/-- A function whose curves are from 0 to 1 with values between `lo` and 1, for every valid input. -/
def UnitCurves (lo : Flt K) (f : CurveF K) : Prop :=
  ∀ (y : List Bool) (s : List K) (W : Option (List (List K))), CurveInput y s W →
    ∃ (n : Nat) (X : List (List K)) (Y : List (List (Flt K))) (kind : Kind) (thr : List (Flt K)),
      f y (finVec s) (W.map (finMat y.length)) = .ok (⟨finMat n X, ⟨n, Y⟩, kind⟩, thr) ∧
      X.length = (weightRows y.length W).length ∧ UnitCurve lo n X Y kind

end
end Mlp.Spec
