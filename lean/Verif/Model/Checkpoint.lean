import Verif.Model.ClassTable
import Verif.Model.Regression

/-!
# Checkpoints: `get_pred_log_prob` and `get_gauss_pred` with a `checkpointdir`

`classification.py` lines 715-726 and `regression.py` lines 258-268 wrap `train_predict` in `joblib.Memory.cache`.
joblib (version 0.11) keeps for each function a directory of results, one for each value of the arguments: before the
call it hashes the arguments; if there is a result under that hash it is loaded, and if loading fails, or there is none,
the function is called and its result is written.  A result is written after the call has returned, so a call that
raises an exception leaves nothing.

What is simplified:
* the key of a result is the value of the arguments, not its hash (there are no collisions);
* the arguments are the object `method_obj`, with its state at that moment, and the data.  `fit` changes the
  state of the object, so objects have identities and a state (`World.heap`);
* what an object predicts, and its state afterwards, is a function of its state and the data;
* a result that was being written when the process died does not load (joblib recomputes it then);
* the process may die at any moment of a call (`Fault`); to die between two calls is `Fault.before` of the second.
The two modules have separate results, since the functions have different names in joblib.
-/

namespace Mlp.Ckpt
open Mlp.Util Mlp.Frame

/-- What there is under a key: nothing, something that does not load, or a result. -/
inductive Entry (α : Type) where
  | missing
  | corrupt
  | good (v : α)

/-- When the process dies in a call, if it does. -/
inductive Fault where
  | none
  | before
  | during
  | midWrite
  | afterWrite

/-- How a call ends: with a result, with an exception, or with the death of the process. -/
inductive Outcome (α : Type) where
  | ok (a : α)
  | exc (e : PyErr)
  | crash

/-- The results in the checkpoint directory. -/
abbrev Store (κ α : Type) := κ → Entry α

/-- What the objects do: `train s x` is the outcome of `train_predict` for an object in the state `s` with the data `x`, and
`after s x` the state of the object after that. -/
structure Code (S X α : Type) where
  train : S → X → Py α
  after : S → X → S

/-- The states of the objects, the checkpoint directory, and the calls of `train_predict` so far: the states and data
for which a method was trained. -/
structure World (S X α : Type) where
  heap : Nat → S
  store : Store (S × X) α
  trained : List (S × X)

section
variable {S X α σ : Type}

open Classical in
/-- Writing under a key. -/
noncomputable def write {κ : Type} (st : Store κ α) (k : κ) (e : Entry α) : Store κ α := fun k' => if k' = k then e else st k'

/-- `method_obj.fit` and `predict` on the object number `ref`: its state changes. -/
def World.touch (w : World S X α) (code : Code S X α) (x : X) (ref : Nat) : World S X α :=
  { w with heap := fun r => if r = ref then code.after (w.heap ref) x else w.heap r,
           trained := w.trained ++ [(w.heap ref, x)] }

/-- A call of `train_predict` without checkpoints. -/
def plainCall (code : Code S X α) (x : X) (ref : Nat) (fault : Fault) (w : World S X α) : Outcome α × World S X α :=
  match fault with
  | .before => (.crash, w)
  | .none =>
    match code.train (w.heap ref) x with
    | .ok v => (.ok v, w.touch code x ref)
    | .error e => (.exc e, w.touch code x ref)
  | _ => (.crash, w.touch code x ref)

/-- The end of a call of the decorated function that has computed a result. -/
noncomputable def persist (fault : Fault) (k : S × X) (v : α) (w : World S X α) : Outcome α × World S X α :=
  match fault with
  | .midWrite => (.crash, { w with store := write w.store k .corrupt })
  | .afterWrite => (.crash, { w with store := write w.store k (.good v) })
  | _ => (.ok v, { w with store := write w.store k (.good v) })

/-- A call of the decorated function that finds no result.  The key is the one of the object before the call. -/
noncomputable def computeAndStore (code : Code S X α) (x : X) (ref : Nat) (fault : Fault) (w : World S X α) :
    Outcome α × World S X α :=
  match fault with
  | .before => (.crash, w)
  | .during => (.crash, w.touch code x ref)
  | f =>
    match code.train (w.heap ref) x with
    | .error e => (.exc e, w.touch code x ref)
    | .ok v => persist f (w.heap ref, x) v (w.touch code x ref)

/-- A call of the decorated function that finds a result. -/
def loadCall (fault : Fault) (v : α) (w : World S X α) : Outcome α × World S X α :=
  match fault with
  | .none => (.ok v, w)
  | _ => (.crash, w)

/-- A call of `train_predict` with `@memory.cache` (classification.py lines 717-726, regression.py lines 260-268). -/
noncomputable def cachedCall (code : Code S X α) (x : X) (ref : Nat) (fault : Fault) (w : World S X α) :
    Outcome α × World S X α :=
  match w.store (w.heap ref, x) with
  | .good v => loadCall fault v w
  | _ => computeAndStore code x ref fault w

/-- The loop over the methods (classification.py lines 730-737, regression.py lines 272-280): a method is a name and
an object.  `call` trains and predicts, `body` is the rest of the loop body. -/
def methodsLoop (call : Nat → Fault → World S X α → Outcome α × World S X α) (body : σ → Str → α → Py σ) :
    List (Str × Nat) → List Fault → σ → World S X α → Outcome σ × World S X α
  | [], _, s, w => (.ok s, w)
  | m :: ms, faults, s, w =>
    match call m.2 (faults.headD .none) w with
    | (.crash, w') => (.crash, w')
    | (.exc e, w') => (.exc e, w')
    | (.ok v, w') =>
      match body s m.1 v with
      | .error e => (.exc e, w')
      | .ok s' => methodsLoop call body ms faults.tail s' w'

/-- A function with checks, the loop over the methods, and a result. -/
def runWith {n τ : Type} (checks : Py n) (loop : n → Outcome σ × World S X α) (result : n → σ → τ)
    (w : World S X α) : Outcome τ × World S X α :=
  match checks with
  | .error e => (.exc e, w)
  | .ok k =>
    match loop k with
    | (.crash, w') => (.crash, w')
    | (.exc e, w') => (.exc e, w')
    | (.ok s, w') => (.ok (result k s), w')

end

/-! ### The two functions -/

section
variable {S D : Type}

/-- The data of a call in `classification.py`. -/
abbrev ClassData (D : Type) := Classif.Features D × LabelVec × Classif.Features D

/-- The data of a call in `regression.py`. -/
abbrev RegrData (D : Type) := Classif.Features D × Regr.Arr × Classif.Features D

/-- Classifiers with a state: `est s` is what an object in state `s` does, `after` its state after `fit` and
`predict`. -/
noncomputable def classCode (est : S → Classif.Estimator D) (after : S → ClassData D → S) : Code S (ClassData D) (Mat ℝ) :=
  ⟨fun s x => Classif.trainPredict x.1 x.2.1 x.2.2 (est s), after⟩

/-- Regressors with a state. -/
noncomputable def regrCode (est : S → Regr.Estimator D) (after : S → RegrData D → S) : Code S (RegrData D) (Regr.Arr × Regr.Arr) :=
  ⟨fun s x => Regr.trainPredict x.1 x.2.1 x.2.2 (est s), after⟩

/-- `get_pred_log_prob` (classification.py lines 656-738) with the given way to call `train_predict`. -/
noncomputable def getPredLogProbWith
    (call : ClassData D → Nat → Fault → World S (ClassData D) (Mat ℝ) → Outcome (Mat ℝ) × World S (ClassData D) (Mat ℝ))
    (xTrain : Classif.Features D) (yTrain : LabelVec) (xTest : Classif.Features D) (nLabels : Nat)
    (methods : List (Str × Nat)) (minLogProb : Flt ℝ) (faults : List Fault) (w : World S (ClassData D) (Mat ℝ)) :
    Outcome (PredTable ℝ) × World S (ClassData D) (Mat ℝ) :=
  let names := methods.map fun m => m.1
  runWith (Classif.predChecks xTrain yTrain xTest nLabels minLogProb)
    (fun nTest => methodsLoop (call (xTrain, yTrain, xTest)) (Classif.storeProb nTest nLabels minLogProb) methods faults
      (emptyCols nTest (product names (rangeList nLabels))) w)
    (fun nTest cols => ⟨sortLevel names, rangeList nLabels, nTest, cols⟩) w

/-- `get_gauss_pred` (regression.py lines 207-281) with the given way to call `train_predict`. -/
noncomputable def getGaussPredWith
    (call : RegrData D → Nat → Fault → World S (RegrData D) (Regr.Arr × Regr.Arr) →
      Outcome (Regr.Arr × Regr.Arr) × World S (RegrData D) (Regr.Arr × Regr.Arr))
    (xTrain : Classif.Features D) (yTrain : Regr.Arr) (xTest : Classif.Features D) (methods : List (Str × Nat))
    (minStd : Flt ℝ) (faults : List Fault) (w : World S (RegrData D) (Regr.Arr × Regr.Arr)) :
    Outcome Regr.GaussTable × World S (RegrData D) (Regr.Arr × Regr.Arr) :=
  let names := methods.map fun m => m.1
  runWith (Regr.predChecks xTrain yTrain xTest minStd)
    (fun nTest => methodsLoop (call (xTrain, yTrain, xTest)) (Regr.storePred nTest minStd) methods faults
      (emptyCols nTest (product names [Regr.muName, Regr.stdName])) w)
    (fun nTest cols => ⟨sortLevel names, sortLevel [Regr.muName, Regr.stdName], nTest, cols⟩) w

end
end Mlp.Ckpt
