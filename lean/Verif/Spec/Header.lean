import Verif.Spec.Reader

/-! # Specification: SI prefixes and signed integers in headers -/

namespace Mlp.Spec

/-- The power of ten of an SI prefix symbol (BIPM table; `u` and `$\mu$` both stand for micro,
the empty prefix for 1; hecto, deca are not used by the library). -/
def siExp (p : Str) : Option Int :=
  if p = "y".toList then some (-24) else if p = "z".toList then some (-21)
  else if p = "a".toList then some (-18) else if p = "f".toList then some (-15)
  else if p = "p".toList then some (-12) else if p = "n".toList then some (-9)
  else if p = "u".toList then some (-6) else if p = "$\\mu$".toList then some (-6)
  else if p = "m".toList then some (-3) else if p = "c".toList then some (-2)
  else if p = "d".toList then some (-1) else if p = [] then some 0
  else if p = "k".toList then some 3 else if p = "M".toList then some 6
  else if p = "G".toList then some 9 else if p = "T".toList then some 12
  else if p = "P".toList then some 15 else if p = "E".toList then some 18
  else if p = "Z".toList then some 21 else if p = "Y".toList then some 24 else none

/-- Powers of ten that have a prefix. -/
def HasPrefix (k : Int) : Prop :=
  k = -1 ∨ k = -2 ∨ (3 ∣ k ∧ -24 ≤ k ∧ k ≤ 24)

/-- Reader for `-12`, `0`, `7`. -/
def readInt : Str → Option Int
  | '-' :: s => (readNat s).map fun (n : Nat) => -(n : Int)
  | s => (readNat s).map fun (n : Nat) => (n : Int)

/-- Prefix `usePrefix`-independent: what the explicit scale part of a header looks like. -/
def scaleText (useTex : Bool) (digits : Str) : Str :=
  if useTex then " $".toList ++ [Char.ofNat 9] ++ "imes 10^{".toList ++ digits ++ "}$".toList
  else " x 1e".toList ++ digits

/-- Braces around a header in TeX mode. -/
def braced (useTex : Bool) (h : Str) : Str := if useTex then ['{'] ++ h ++ ['}'] else h

end Mlp.Spec
