import Verif.Spec.Ieee
import Verif.Model.Ieee
import Verif.Model.CurveRound

/-! # Specification of the inputs of a curve summary that are far from overflow and underflow -/

namespace Mlp.Spec
open Mlp.Util Mlp.Classif Mlp.Round Mlp.PerfR Mlp.Perf

section
variable {K : Type} [Field K] [LinearOrder K] [IsStrictOrderedRing K] [FloorRing K]

/-- All finite entries of a matrix are multiples of `2 ^ -1074` up to `2 ^ 1022` in magnitude, as doubles below `2 ^ 1022` are. -/
def MatRange (p : Mat K) : Prop := ∀ r ∈ p.rows, ∀ x, Flt.fin x ∈ r → OnGrid 1074 1022 x

/-- The parameters of the bootstrap of a curve: a grid of multiples of `2 ^ -400` (every double from `2 ^ -348` on is one) between
-1024 and 1024, at most `2 ^ 53` replicates and a confidence that is a double. -/
structure BootParams (grid : Option (List (Flt K))) (nBoot : Int) (confidence : Flt K) : Prop where
  grid : ∀ g, grid = some g → ∀ x, Flt.fin x ∈ g → OnGrid 400 10 x
  boots : nBoot ≤ 2 ^ 53
  confidence : ∀ c, confidence = .fin c → IsDouble c

/-- The outcome of a draw of the bootstrap: no count above `2 ^ 60`. -/
def CountRange (counts : List (List Nat)) : Prop := ∀ row ∈ counts, ∀ c ∈ row, c ≤ 2 ^ 60

/-- A reference: a number up to `2 ^ 1000` in magnitude, or predictions. -/
def RefRange : RefArg K → Prop
  | .value r => ∀ x, r = .fin x → OnGrid 1074 1000 x
  | .preds q => MatRange q

/-- The curves of the package. -/
inductive PackageCurve where
  | roc
  | recallPrecision
  | prg

/-- A curve of the package in floating point. -/
def PackageCurve.fn (rnd : K → K) (sumR : List K → K) : PackageCurve → CurveF K
  | .roc => rocCurveR rnd sumR
  | .recallPrecision => recallPrecisionCurveR rnd sumR
  | .prg => prgCurveR rnd sumR

end
end Mlp.Spec
