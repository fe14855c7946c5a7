import Verif.Props.Checkpoint

/-!
# Cases for the theorems about checkpoints

Two objects that are not fitted, an empty directory, and runs that die at different moments.
-/

namespace Mlp.Props
open Mlp.Util Mlp.Spec Mlp.Lemmas Mlp.Frame Mlp.Ckpt

/-! ### Classification -/

/-- A result in the directory after the run that was stopped while its second result was written. -/
example {p : Mat ℝ} (hp : exampleStore (false, exampleTrain, exampleY, exampleTest) = .good p) : Predicts exampleTrain exampleY exampleTest exampleEst p :=
  C90_class_sound exampleHistory hp

/-- Without a directory, two different objects. -/
example : (getPredLogProbWith (plainCall (classCode (fun _ : Bool => exampleEst) fun _ _ => true)) exampleTrain exampleY exampleTest 2
      [("a".toList, 0), ("b".toList, 1)] (.fin (-2)) [] ⟨fun _ => false, fun _ => .missing, []⟩).1 =
    toOutcome (Classif.getPredLogProb exampleTrain exampleY exampleTest 2 [("a".toList, exampleEst), ("b".toList, exampleEst)] (.fin (-2))) :=
  C90_class_plain exampleTrain exampleY exampleTest 2 [("a".toList, 0), ("b".toList, 1)] _ (Or.inl (by simp)) _

/-- Two objects and an empty directory. -/
noncomputable def freshWorld : World Bool (ClassData Unit) (Mat ℝ) := ⟨fun _ => false, fun _ => .missing, []⟩

/-- The run that is stopped before its first training. -/
theorem crash_example : getPredLogProbWith (cachedCall (classCode (fun _ : Bool => exampleEst) fun _ _ => true)) exampleTrain exampleY exampleTest 2
    [("a".toList, 0), ("b".toList, 1)] (.fin (-2)) [.before] freshWorld = (.crash, freshWorld) := by
  unfold getPredLogProbWith runWith
  rw [(C81_checks _ _ _ _ _ _).2 (exampleGood (.fin (-2)) (by norm_num))]
  rfl

/-- The results of both objects in the directory. -/
noncomputable def fullWorld : World Bool (ClassData Unit) (Mat ℝ) := ⟨fun _ => false, fun _ => .good ⟨2, [logRow [1 / 4, 3 / 4], logRow [0, 1]]⟩, []⟩

example := C90_class_trained (est := fun _ : Bool => exampleEst) (after := fun _ _ => true) exampleTrain exampleY exampleTest 2
  (methods := [("a".toList, 0), ("b".toList, 1)]) (.fin (-2)) (by simp) [.none, .midWrite] freshWorld (Prod.mk.eta).symm

example : ∃ done f rest, [Fault.before] = List.replicate done Fault.none ++ f :: rest ∧ f ≠ .none ∧ done < 2 := by
  obtain ⟨done, f, rest, h1, h2, h3, -⟩ := C90_class_progress exampleTrain exampleY exampleTest 2 (.fin (-2)) (by simp) crash_example
  exact ⟨done, f, rest, h1, h2, h3⟩

example := C90_class_monotone (est := fun _ : Bool => exampleEst) (after := fun _ _ => true) exampleTrain exampleY exampleTest 2
  [("a".toList, 0), ("b".toList, 1)] (.fin (-2)) [.none, .midWrite] fullWorld (k := (true, exampleTrain, exampleY, exampleTest)) rfl

example := C90_class_objects (est := fun _ : Bool => exampleEst) (after := fun _ _ => true) exampleTrain exampleY exampleTest 2
  (methods := [("a".toList, 0), ("b".toList, 1)]) (.fin (-2)) (by simp) [.none, .midWrite] freshWorld 1

example : (getPredLogProbWith (cachedCall (classCode (fun _ : Bool => exampleEst) fun _ _ => true)) exampleTrain exampleY exampleTest 2
    [("a".toList, 0), ("b".toList, 1)] (.fin (-2)) [] fullWorld).2 = fullWorld :=
  C90_class_idle exampleTrain exampleY exampleTest 2 (.fin (-2)) [] fun _ _ => ⟨_, rfl⟩

/-! ### Regression -/

/-- Two objects and an empty directory. -/
noncomputable def freshRegr : World Bool (RegrData Unit) (Regr.Arr × Regr.Arr) := ⟨fun _ => false, fun _ => .missing, []⟩

theorem crash_regr : getGaussPredWith (cachedCall (regrCode (fun _ : Bool => meanOnly) fun _ _ => true)) regrTrain (realArr [4, 4, 4]) regrTest
    [("a".toList, 0), ("b".toList, 1)] (.fin (1 / 2)) [.before] freshRegr = (.crash, freshRegr) := by
  unfold getGaussPredWith runWith
  rw [(C88_checks _ _ _ _ _).2 (regrGood (1 / 2) (by norm_num))]
  rfl

/-- The same predictions for both objects in the directory. -/
noncomputable def fullRegr : World Bool (RegrData Unit) (Regr.Arr × Regr.Arr) :=
  ⟨fun _ => false, fun _ => .good (.vec [.fin 4, .fin 4], .vec [.fin 1, .fin 1]), []⟩

/-- The directory after a run that was stopped right after its first result was written. -/
example {p : Regr.Arr × Regr.Arr}
    (hp : (getGaussPredWith (cachedCall (regrCode (fun _ : Bool => meanOnly) fun _ _ => true)) regrTrain (realArr [4, 4, 4]) regrTest
      [("a".toList, 0), ("b".toList, 1)] (.fin (1 / 2)) [.afterWrite] ⟨fun _ => false, fun _ => .missing, []⟩).2.store
        (false, regrTrain, realArr [4, 4, 4], regrTest) = .good p) :
    PredictsGauss regrTrain (realArr [4, 4, 4]) regrTest meanOnly p.1 p.2 :=
  C90_regr_sound (est := fun _ : Bool => meanOnly) (after := fun _ _ => true) (.run .empty _ _ _ _ _ _ _ _) hp

example := C90_regr_plain (est := fun _ : Bool => meanOnly) (after := fun _ _ => true) regrTrain (realArr [4, 4, 4]) regrTest
  [("a".toList, 0), ("b".toList, 1)] (.fin (1 / 2)) (Or.inl (by simp)) freshRegr

example := C90_regr_trained (est := fun _ : Bool => meanOnly) (after := fun _ _ => true) regrTrain (realArr [4, 4, 4]) regrTest
  (methods := [("a".toList, 0), ("b".toList, 1)]) (.fin (1 / 2)) (by simp) [.none, .midWrite] freshRegr (Prod.mk.eta).symm

example : ∃ done f rest, [Fault.before] = List.replicate done Fault.none ++ f :: rest ∧ f ≠ .none ∧ done < 2 := by
  obtain ⟨done, f, rest, h1, h2, h3, -⟩ := C90_regr_progress regrTrain (realArr [4, 4, 4]) regrTest (.fin (1 / 2)) (by simp) crash_regr
  exact ⟨done, f, rest, h1, h2, h3⟩

example := C90_regr_monotone (est := fun _ : Bool => meanOnly) (after := fun _ _ => true) regrTrain (realArr [4, 4, 4]) regrTest
  [("a".toList, 0), ("b".toList, 1)] (.fin (1 / 2)) [.none, .midWrite] fullRegr (k := (true, regrTrain, realArr [4, 4, 4], regrTest)) rfl

example := C90_regr_objects (est := fun _ : Bool => meanOnly) (after := fun _ _ => true) regrTrain (realArr [4, 4, 4]) regrTest
  (methods := [("a".toList, 0), ("b".toList, 1)]) (.fin (1 / 2)) (by simp) [.none, .midWrite] freshRegr 1

example : (getGaussPredWith (cachedCall (regrCode (fun _ : Bool => meanOnly) fun _ _ => true)) regrTrain (realArr [4, 4, 4]) regrTest
    [("a".toList, 0), ("b".toList, 1)] (.fin (1 / 2)) [] fullRegr).2 = fullRegr :=
  C90_regr_idle regrTrain (realArr [4, 4, 4]) regrTest (.fin (1 / 2)) [] fun _ _ => ⟨_, rfl⟩

end Mlp.Props
