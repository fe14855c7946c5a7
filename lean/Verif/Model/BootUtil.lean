import Verif.Model.Flt
import Mathlib.Algebra.Order.Floor.Defs
import Mathlib.Data.List.Sort

/-!
# `mlpaper/boot_util.py`

Line numbers refer to `/repo/mlpaper/boot_util.py`.  Arrays of bootstrap estimates are lists; for a
two-dimensional array the functions act on each column separately (`axis=0`).  Arithmetic on finite
numbers is exact.
-/

namespace Mlp.Boot

section
variable {K : Type} [Field K] [LinearOrder K] [IsStrictOrderedRing K] [FloorRing K]

/-- `boot_weights` (lines 5-30).  `counts` is the outcome of `np.random.multinomial(N, p_BS, n_boot)`:
one list of counts for each replicate. -/
def bootWeights (N nBoot : Int) (epsilon : K) (counts : List (List Nat)) : Py (List (List K)) := do
  pyAssert (decide (1 ≤ N))                                              -- line 24
  pyAssert (decide (1 ≤ nBoot))                                          -- line 25
  let weight := counts.map fun row => row.map fun (c : Nat) => max epsilon (c : K)   -- line 28
  pyAssert (decide ((weight.length : Int) = nBoot) &&
    weight.all fun row => decide ((row.length : Int) = N))               -- line 29
  return weight

/-- `confidence_to_percentiles` (lines 33-58). -/
def confidenceToPercentiles (confidence : Flt K) : Py (K × K) :=
  match confidence with
  | .fin c => do
    pyAssert (decide (0 < c) && decide (c < 1))                          -- line 54
    let alpha := (1 / 2) * (1 - c)                                       -- line 56
    return (100 * alpha, 100 * (1 - alpha))                              -- line 57
  | _ => .error .assertion

/-- `np.percentile(l, q, interpolation="lower")`: the sorted value at `floor(q/100 * (n-1))`. -/
def percentileLower (l : List (Flt K)) (q : K) : Py (Flt K) :=
  match (l.insertionSort (· ≤ ·))[⌊q / 100 * ((l.length : K) - 1)⌋.toNat]? with
  | some v => .ok v
  | none => .error .indexError

/-- `np.percentile(l, q, interpolation="higher")`: the sorted value at `ceil(q/100 * (n-1))`. -/
def percentileHigher (l : List (Flt K)) (q : K) : Py (Flt K) :=
  match (l.insertionSort (· ≤ ·))[⌈q / 100 * ((l.length : K) - 1)⌉.toNat]? with
  | some v => .ok v
  | none => .error .indexError

/-- `percentile` (lines 61-91). -/
def percentile (boot : List (Flt K)) (confidence : Flt K) : Py (Flt K × Flt K) := do
  pyAssert (!(boot.any fun v => v.isNaN))                                -- line 79
  let p ← confidenceToPercentiles confidence                             -- line 81
  let LB ← percentileLower boot p.1                                      -- line 87
  let UB ← percentileHigher boot p.2                                     -- line 88
  return (LB, UB)

/-- `basic` (lines 94-118). -/
def basic (boot : List (Flt K)) (original : Flt K) (confidence : Flt K) : Py (Flt K × Flt K) := do
  let p ← percentile boot confidence
  return (((Flt.fin 2).mul original).sub p.2, ((Flt.fin 2).mul original).sub p.1)   -- line 117

/-- `error_bar` (lines 121-148). -/
def errorBar (boot : List (Flt K)) (original : Flt K) (confidence : Flt K) : Py (Flt K) := do
  let p ← percentile boot confidence                                     -- line 142
  let EB := Flt.fmax (p.2.sub original) (original.sub p.1)               -- line 144
  pyAssert (!(EB.lt (.fin 0)))                                           -- line 145
  pyAssert (!original.isFinite || !EB.isNaN)                             -- line 147
  return EB

/-- The reference of a test: a number or one number for each replicate. -/
inductive Ref (K : Type) where
  | scalar (r : Flt K)
  | paired (r : List (Flt K))

/-- The reference as a vector as long as the sample (broadcasting), if the shapes agree (line 170). -/
def Ref.broadcast : Ref K → Nat → Option (List (Flt K))
  | .scalar r, n => some (List.replicate n r)
  | .paired r, n => if r.length = n then some r else none

/-- `np.mean` of a Boolean vector. -/
def meanBool (l : List Bool) : Flt K := (Flt.fin (l.count true : K)).div (.fin (l.length : K))

/-- `significance` (lines 151-177). -/
def significance (boot : List (Flt K)) (ref : Ref K) : Py (Flt K) :=
  match ref.broadcast boot.length with
  | none => .error .assertion                                            -- line 170
  | some r => do
    pyAssert (!(boot.any fun v => v.isNaN))                              -- line 171
    pyAssert (!(match ref with
      | .scalar r => r.isNaN
      | .paired r => r.any fun v => v.isNaN))                            -- line 172
    let pval := (Flt.fin 2).mul (Flt.minimum (meanBool (List.zipWith Flt.le boot r))
      (meanBool (List.zipWith Flt.le r boot)))                           -- line 174
    return Flt.minimum (.fin 1) pval                                     -- line 176

end
end Mlp.Boot
