import Verif.Model.Flt

/-! # `clip_chk` of `mlpaper/util.py` (lines 14-18) -/

namespace Mlp.Util

section
variable {K : Type} [Field K] [LinearOrder K]

/-- `np.isclose(a, b)` with the default tolerances: for numbers `|a - b| <= 1e-8 + 1e-5 * |b|`,
otherwise equality. -/
def isclose (a b : Flt K) : Bool :=
  match a, b with
  | .fin x, .fin y => decide (|x - y| ≤ 1 / 100000000 + 1 / 100000 * |y|)
  | a, b => a.eq b

/-- `clip_chk` (util.py lines 14-18) for a scalar. -/
def clipChk (a lo hi : Flt K) : Py (Flt K) := do
  let c := a.clip lo hi                                                  -- line 15
  pyAssert (a.eq c || isclose a lo || isclose a hi)                      -- line 17
  return c

end
end Mlp.Util
