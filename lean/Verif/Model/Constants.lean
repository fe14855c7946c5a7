import Verif.Model.Py

/-! # `mlpaper/constants.py` -/

namespace Mlp

/-- `_PREFIX` (constants.py:34-54): SI prefix for a power of ten. -/
def siPrefix : List (Int × Str) :=
  [(-24, "y".toList), (-21, "z".toList), (-18, "a".toList), (-15, "f".toList), (-12, "p".toList),
   (-9, "n".toList), (-6, "u".toList), (-3, "m".toList), (-2, "c".toList), (-1, "d".toList),
   (0, []), (3, "k".toList), (6, "M".toList), (9, "G".toList), (12, "T".toList),
   (15, "P".toList), (18, "E".toList), (21, "Z".toList), (24, "Y".toList)]

/-- `_PREFIX_TEX` (constants.py:56-57): copy of `_PREFIX` with the micro sign in TeX. -/
def siPrefixTex : List (Int × Str) :=
  siPrefix.map fun kv => if kv.1 = -6 then (-6, "$\\mu$".toList) else kv

/-- `MEAN_COL`, `ERR_COL`, `PVAL_COL`, `EST_COL` as used for formatted columns
(constants.py:13-19): the two statistics of a formatted table. -/
inductive FmtStat where
  | est   -- EST_COL = "estimate"
  | pval  -- PVAL_COL = "p"
  deriving DecidableEq, Repr

end Mlp
