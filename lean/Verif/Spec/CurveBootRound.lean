import Verif.Model.CurveRound
import Verif.Spec.CurveBoot

/-! # Specification vocabulary for bootstrapped curves in floating point arithmetic -/

namespace Mlp.Spec
open Mlp.Util Mlp.Classif Mlp.Boot Mlp.Perf Mlp.CurveR

section
variable {K : Type} [Field K] [LinearOrder K] [IsStrictOrderedRing K] [FloorRing K]

/-- The weights of the replicates: the counts, with `ε` in the place of 0. -/
def countRows (ε : K) (counts : List (List Nat)) : List (List K) :=
  counts.map fun row => row.map fun (c : Nat) => max ε (c : K)

/-- For these labels, scores and weights the function gives curves from 0 to 1 with values between `lo` and 1 and at most `N`
points, one for each row of weights. -/
def UnitCurveAt (lo : Flt K) (N : Nat) (f : CurveF K) (y : List Bool) (s : List K) (W : Option (List (List K))) : Prop :=
  ∃ (n : Nat) (X : List (List K)) (Y : List (List (Flt K))) (kind : Kind) (thr : List (Flt K)),
    f y (finVec s) (W.map (finMat y.length)) = .ok (⟨finMat n X, ⟨n, Y⟩, kind⟩, thr) ∧ n ≤ N ∧
    X.length = (weightRows y.length W).length ∧ UnitCurve lo n X Y kind

variable (rnd : K → K) (sumR : List K → K)

/-- The computed areas under the curves for the given labels, scores and weights. -/
def AreaOfR (f : CurveF K) (y : List Bool) (s : List (Flt K)) (W : Option (Mat K)) (A : List (Flt K)) : Prop :=
  ∃ c thr, f y s W = .ok (c, thr) ∧ areaR rnd sumR c.x c.y c.kind = .ok A

/-- The computed values of the curves on a grid. -/
def CurveAtR (other : Interp K) (f : CurveF K) (y : List Bool) (s : List (Flt K)) (W : Option (Mat K)) (grid : List (Flt K))
    (Y : List (List (Flt K))) : Prop :=
  ∃ c thr, f y s W = .ok (c, thr) ∧
    List.Forall₂ (fun xy row => interp1dR rnd other grid xy.1 xy.2 c.kind = .ok row) (List.zip c.x.rows c.y.rows) Y

/-- The areas to compare with: those computed for the reference predictions, or a given number. -/
def RefAreasOfR (f : CurveF K) (y : List Bool) (W : Mat K) (nBoot : Nat) : RefArg K → List (Flt K) → Flt K → Prop
  | .value r, RA, R0 => RA = List.replicate nBoot r ∧ R0 = r
  | .preds q, RA, R0 => ∃ s, IsPosScore q s ∧ AreaOfR rnd sumR f y s (some W) RA ∧ RA.length = nBoot ∧
    AreaOfR rnd sumR f y s none [R0]

end
end Mlp.Spec
