import Verif.Model.BootUtil
import Verif.Model.PerfRound

/-!
# `mlpaper/boot_util.py` in floating point arithmetic

The functions of `Verif/Model/BootUtil.lean` once more, with every arithmetic operation on floats rounded
by `rnd`.  Line numbers refer to `/repo/mlpaper/boot_util.py`.  `boot_weights` has no arithmetic that could be
rounded (`p_BS` only goes into the random number generator).  Overflow and underflow are not modelled
here; property C127 shows that they do not happen.
-/

namespace Mlp.BootR
open Mlp.PerfR Mlp.Boot

section
variable {K : Type} [Field K] [LinearOrder K] [IsStrictOrderedRing K] [FloorRing K] (rnd : K → K)

/-- `confidence_to_percentiles` (lines 33-58). -/
def confidenceToPercentilesR (confidence : Flt K) : Py (K × K) :=
  match confidence with
  | .fin c => do
    pyAssert (decide (0 < c) && decide (c < 1))                          -- line 54
    let alpha := rnd ((1 / 2) * rnd (1 - c))                             -- line 56
    return (rnd (100 * alpha), rnd (100 * rnd (1 - alpha)))              -- line 57
  | _ => .error .assertion

/-- The position `q/100 * (n-1)` that `np.percentile` computes from a percentile `q` and the size `n`. -/
def positionR (q : K) (n : Nat) : K := rnd (rnd (q / 100) * ((n : K) - 1))

/-- `np.percentile(l, q, interpolation="lower")`. -/
def percentileLowerR (l : List (Flt K)) (q : K) : Py (Flt K) :=
  match (l.insertionSort (· ≤ ·))[⌊positionR rnd q l.length⌋.toNat]? with
  | some v => .ok v
  | none => .error .indexError

/-- `np.percentile(l, q, interpolation="higher")`. -/
def percentileHigherR (l : List (Flt K)) (q : K) : Py (Flt K) :=
  match (l.insertionSort (· ≤ ·))[⌈positionR rnd q l.length⌉.toNat]? with
  | some v => .ok v
  | none => .error .indexError

/-- `percentile` (lines 61-91). -/
def percentileR (boot : List (Flt K)) (confidence : Flt K) : Py (Flt K × Flt K) := do
  pyAssert (!(boot.any fun v => v.isNaN))                                -- line 79
  let p ← confidenceToPercentilesR rnd confidence                        -- line 81
  let LB ← percentileLowerR rnd boot p.1                                 -- line 87
  let UB ← percentileHigherR rnd boot p.2                                -- line 88
  return (LB, UB)

/-- `basic` (lines 94-118). -/
def basicR (boot : List (Flt K)) (original : Flt K) (confidence : Flt K) : Py (Flt K × Flt K) := do
  let p ← percentileR rnd boot confidence
  return (rF rnd ((rF rnd ((Flt.fin 2).mul original)).sub p.2),
    rF rnd ((rF rnd ((Flt.fin 2).mul original)).sub p.1))                -- line 117

/-- `error_bar` (lines 121-148). -/
def errorBarR (boot : List (Flt K)) (original : Flt K) (confidence : Flt K) : Py (Flt K) := do
  let p ← percentileR rnd boot confidence                                -- line 142
  let EB := Flt.fmax (rF rnd (p.2.sub original)) (rF rnd (original.sub p.1))   -- line 144
  pyAssert (!(EB.lt (.fin 0)))                                           -- line 145
  pyAssert (!original.isFinite || !EB.isNaN)                             -- line 147
  return EB

/-- `np.mean` of a Boolean vector (the number of True values is exact). -/
def meanBoolR (l : List Bool) : Flt K := rF rnd ((Flt.fin (l.count true : K)).div (.fin (l.length : K)))

/-- `significance` (lines 151-177). -/
def significanceR (boot : List (Flt K)) (ref : Ref K) : Py (Flt K) :=
  match ref.broadcast boot.length with
  | none => .error .assertion                                            -- line 170
  | some r => do
    pyAssert (!(boot.any fun v => v.isNaN))                              -- line 171
    pyAssert (!(match ref with
      | .scalar r => r.isNaN
      | .paired r => r.any fun v => v.isNaN))                            -- line 172
    let pval := rF rnd ((Flt.fin 2).mul (Flt.minimum (meanBoolR rnd (List.zipWith Flt.le boot r))
      (meanBoolR rnd (List.zipWith Flt.le r boot))))                     -- line 174
    return Flt.minimum (.fin 1) pval                                     -- line 176

end
end Mlp.BootR
