import Verif.Model.Checkpoint

/-! # Specification vocabulary for checkpoints -/

namespace Mlp.Spec
open Mlp.Util Mlp.Frame Mlp.Ckpt

/-- The outcome of a function that does not crash. -/
def toOutcome {α : Type} : Py α → Outcome α
  | .ok a => .ok a
  | .error e => .exc e

/-- There is a usable result under the key. -/
def HasResult {κ α : Type} (st : Store κ α) (k : κ) : Prop := ∃ v, st k = .good v

variable {S D : Type}

/-- The checkpoint directories that can come about: an empty one; what any run of `get_pred_log_prob` leaves behind,
whatever its arguments, the state of the objects and the moment at which it dies or fails; and what is left after
results are lost or damaged. -/
inductive ClassHistory (est : S → Classif.Estimator D) (after : S → ClassData D → S) :
    Store (S × ClassData D) (Mat ℝ) → Prop
  | empty : ClassHistory est after fun _ => .missing
  | run {st} (h : ClassHistory est after st) (xTrain : Classif.Features D) (yTrain : LabelVec)
      (xTest : Classif.Features D) (nLabels : Nat) (methods : List (Str × Nat)) (minLogProb : Flt ℝ) (faults : List Fault)
      (heap : Nat → S) (trained : List (S × ClassData D)) :
      ClassHistory est after (getPredLogProbWith (cachedCall (classCode est after)) xTrain yTrain xTest nLabels methods
        minLogProb faults ⟨heap, st, trained⟩).2.store
  | loss {st} (h : ClassHistory est after st) (st' : Store (S × ClassData D) (Mat ℝ))
      (hl : ∀ k v, st' k = .good v → st k = .good v) : ClassHistory est after st'

/-- The same for `get_gauss_pred`. -/
inductive RegrHistory (est : S → Regr.Estimator D) (after : S → RegrData D → S) :
    Store (S × RegrData D) (Regr.Arr × Regr.Arr) → Prop
  | empty : RegrHistory est after fun _ => .missing
  | run {st} (h : RegrHistory est after st) (xTrain : Classif.Features D) (yTrain : Regr.Arr)
      (xTest : Classif.Features D) (methods : List (Str × Nat)) (minStd : Flt ℝ) (faults : List Fault)
      (heap : Nat → S) (trained : List (S × RegrData D)) :
      RegrHistory est after (getGaussPredWith (cachedCall (regrCode est after)) xTrain yTrain xTest methods
        minStd faults ⟨heap, st, trained⟩).2.store
  | loss {st} (h : RegrHistory est after st) (st' : Store (S × RegrData D) (Regr.Arr × Regr.Arr))
      (hl : ∀ k v, st' k = .good v → st k = .good v) : RegrHistory est after st'

end Mlp.Spec
