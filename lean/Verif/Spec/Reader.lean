import Verif.Model.Py
import Verif.Spec.DecVal

/-!
# How a person reads a printed number

An independent specification: a small reader for strings such as `-1,234.50(12)`.
-/

namespace Mlp.Spec

/-- Value of a digit character, if it is one. -/
def readDigit (c : Char) : Option Nat :=
  if '0' ≤ c ∧ c ≤ '9' then some (c.toNat - '0'.toNat) else none

/-- Value of a string of digits (base ten), continuing from `acc`. -/
def readDigitsFrom (acc : Nat) : Str → Option Nat
  | [] => some acc
  | c :: s => (readDigit c).bind fun d => readDigitsFrom (10 * acc + d) s

/-- Value of a non-empty string of digits. -/
def readNat (s : Str) : Option Nat := if s = [] then none else readDigitsFrom 0 s

/-- Split at the first occurrence of a character: the part before it and, if it occurs, the part
after it. -/
def splitAt (c : Char) : Str → Str × Option Str
  | [] => ([], none)
  | x :: s => if x = c then ([], some s) else ((x :: (splitAt c s).1), (splitAt c s).2)

/-- An unsigned number `digits` or `digits.digits` (no commas left): value and number of
decimal places. -/
def readUnsigned (s : Str) : Option (ℚ × Nat) :=
  match splitAt '.' s with
  | (ip, none) => (readNat ip).map fun (n : Nat) => ((n : ℚ), 0)
  | (ip, some fp) =>
    (readNat ip).bind fun (n : Nat) => (readNat fp).map fun (f : Nat) =>
      ((n : ℚ) + (f : ℚ) / 10 ^ fp.length, fp.length)

/-- A signed number with thousands separators: value and number of decimal places. -/
def readNum (s : Str) : Option (ℚ × Nat) :=
  match s.filter (fun c => c ≠ ',') with
  | '-' :: s' => (readUnsigned s').map fun p => (-p.1, p.2)
  | s' => readUnsigned s'

/-- An estimate `m` or `m(e)`: value of the mean, decimal places, and the error, where the digits
in parentheses count units of the last place of the mean. -/
def readEst (s : Str) : Option (ℚ × Nat × Option ℚ) :=
  match splitAt '(' s with
  | (m, none) => (readNum m).map fun p => (p.1, p.2, none)
  | (m, some rest) =>
    match splitAt ')' rest with
    | (e, some []) =>
      (readNum m).bind fun p => (readNat e).map fun (k : Nat) => (p.1, p.2, some ((k : ℚ) / 10 ^ p.2))
    | _ => none

/-! ## Shape of printed numbers -/

/-- A digit character. -/
def IsDigit (c : Char) : Prop := '0' ≤ c ∧ c ≤ '9'

/-- One to three digits followed by any number of `,ddd` groups. -/
def Grouped3 (s : Str) : Prop :=
  ∃ (h : Str) (gs : List Str), 1 ≤ h.length ∧ h.length ≤ 3 ∧ (∀ c ∈ h, IsDigit c) ∧
    (∀ g ∈ gs, g.length = 3 ∧ ∀ c ∈ g, IsDigit c) ∧ s = h ++ (gs.map fun g => ',' :: g).flatten

/-- Optional minus, grouped integer part without superfluous leading zero, optional fraction. -/
def NumShape (s : Str) : Prop :=
  ∃ sg ip fr : Str, s = sg ++ ip ++ fr ∧ (sg = [] ∨ sg = ['-']) ∧ Grouped3 ip ∧
    (ip = ['0'] ∨ ip.head? ≠ some '0') ∧
    (fr = [] ∨ ∃ ds, fr = '.' :: ds ∧ ds ≠ [] ∧ ∀ c ∈ ds, IsDigit c)

/-- A number, or a number followed by digits in parentheses. -/
def EstShape (s : Str) : Prop :=
  NumShape s ∨ ∃ m e, s = m ++ ['('] ++ e ++ [')'] ∧ NumShape m ∧ e ≠ [] ∧ ∀ c ∈ e, IsDigit c

/-- The `decimal` value scaled by a power of ten. -/
def shifted (x : ℚ) (k : Int) : ℚ := x * 10 ^ k

end Mlp.Spec
