import Verif.Model.DataSplitter
import Mathlib.Data.Finset.Card
import Mathlib.Data.Finset.Lattice.Fold
import Mathlib.Algebra.Order.Floor.Ring

/-!
# Specification vocabulary for the data splitters

Nothing here uses the functions of the model: rows are picked by position, value sets are finite
sets, and rounding is described by its two properties.
-/

namespace Mlp.Spec
open Mlp.Splitter

/-- A floating point rounding: monotone and exact on integers. -/
structure IsRounding {K : Type} [Field K] [LinearOrder K] (rnd : K → K) : Prop where
  mono : Monotone rnd
  int : ∀ z : Int, rnd z = z

/-- `p` is a permutation of the positions `0, …, n-1`. -/
def IsPerm (p : List Nat) (n : Nat) : Prop := p.Perm (List.range n)

/-- The entries of a list at the positions satisfying `keep`, in order. -/
def pick {β : Type} (l : List β) (keep : Nat → Bool) : List β :=
  ((List.range l.length).filter keep).filterMap fun i => l[i]?

/-- The rows of a frame at the positions satisfying `keep`, in order and with all their columns. -/
def pickRows {α : Type} (df : Frame α) (keep : Nat → Bool) : Frame α :=
  ⟨pick df.index keep, df.cols.map fun c => (c.1, pick c.2 keep)⟩

/-- All columns have as many entries as the index. -/
def WellFormed {α : Type} (df : Frame α) : Prop :=
  ∀ c ∈ df.cols, c.2.length = df.index.length

/-- The column a split refers to: the index, or the (first) column of that name. -/
inductive HasColumn {α : Type} (df : Frame α) : Option Str → List (Option α) → Prop
  | index : HasColumn df none df.index
  | col (name : Str) (before after : List (Option Str × List (Option α))) (c : List (Option α)) :
      df.cols = before ++ (some name, c) :: after → (∀ x ∈ before, x.1 ≠ some name) →
      HasColumn df (some name) c

/-- `Places … (feature, type, frac) m`: the column split of that type on that column, with the hints
that the two lists give for it, returns the mask `m`. -/
inductive Places {K : Type} [Field K] [LinearOrder K] [IsStrictOrderedRing K] [FloorRing K]
    (rnd : K → K) (perm : Option Str → Nat → List Nat) (df : Frame (Ext K))
    (unique sorted : List (Option Str)) : SplitSpec K → List Bool → Prop
  | random (f S frac m) : HasColumn df f S →
      randomSplit rnd (perm f) S frac (decide (f ∈ unique)) = .ok m →
      Places rnd perm df unique sorted (f, "random".toList, frac) m
  | ordered (f S frac m) : HasColumn df f S →
      orderedSplit rnd S frac (decide (f ∈ sorted)) (decide (f ∈ unique)) = .ok m →
      Places rnd perm df unique sorted (f, "ordered".toList, frac) m
  | linear (f S frac m) : HasColumn df f S →
      linearSplit rnd S frac (decide (f ∈ sorted)) = .ok m →
      Places rnd perm df unique sorted (f, "linear".toList, frac) m

/-- Where a row goes. -/
inductive Side where
  | train | test | unused
  deriving DecidableEq, Repr

/-- A series without nulls. -/
def noNull {α : Type} (vals : List α) : List (Option α) := vals.map some

/-- The finite numbers of a list seen as floats. -/
def finiteVals {K : Type} (xs : List K) : List (Ext K) := xs.map fun (x : K) => ((x : WithTop K) : Ext K)

end Mlp.Spec
