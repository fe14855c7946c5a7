import Verif.Spec.FloatSum
import Verif.Model.Util
import Mathlib.Algebra.Order.Floor.Defs

/-! # Specification of numbers far from overflow and underflow -/

namespace Mlp.Spec
open Mlp.Util

section
variable {K : Type} [Field K] [LinearOrder K]

/-- `x` is a multiple of `2 ^ -k` and at most `2 ^ e` in magnitude. -/
def OnGrid (k e : Nat) (x : K) : Prop := (∃ m : Int, x * 2 ^ k = m) ∧ |x| ≤ 2 ^ e

/-- An order of summation for every vector: `order l` is a tree with the entries of `l` as its leaves. -/
def IsOrder (order : List K → SumTree K) : Prop := ∀ l, l ≠ [] → (order l).leaves.Perm l

/-- `np.sum` that adds in the order `order` and rounds with `rnd`. -/
def sumBy (order : List K → SumTree K) (rnd : K → K) (l : List K) : K := if l.isEmpty then 0 else (order l).eval rnd

/-- The input of a curve: at most `2 ^ 53` samples, scores that are doubles up to `2 ^ 1022` in magnitude and weights that are
multiples of `2 ^ -100` up to `2 ^ 60`.  (The weights of the bootstrap are multiples of `2 ^ -86`.) -/
structure CurveRange (y : List Bool) (s : List (Flt K)) (W : Option (Mat K)) : Prop where
  size : y.length ≤ 2 ^ 53
  scores : ∀ x, Flt.fin x ∈ s → OnGrid 1074 1022 x
  weights : ∀ m, W = some m → ∀ r ∈ m.rows, ∀ x, Flt.fin x ∈ r → OnGrid 100 60 x

end
end Mlp.Spec
