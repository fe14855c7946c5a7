import Verif.Lemmas.Checkpoint
import Verif.Props.RegrPred

/-!
# Property C90: checkpoints

Objects are numbered, and `heap` gives their states.  `est s` is what an estimator in the state `s` does when it is trained
and asked to predict, `after s x` its state afterwards.
-/

namespace Mlp.Props
open Mlp.Util Mlp.Spec Mlp.Lemmas Mlp.Frame Mlp.Ckpt

variable {S D : Type}

theorem plain_hcall {X α : Type} (code : Code S X α) (x : X) (ref : Nat) (w : World S X α) (_ : True) :
    (plainCall code x ref .none w).1 = toOutcome (code.train (w.heap ref) x) ∧ True ∧
      (∀ r, r ≠ ref → (plainCall code x ref .none w).2.heap r = w.heap r) ∧
      ((plainCall code x ref .none w).2.heap ref = w.heap ref ∨
        (plainCall code x ref .none w).2.heap ref = code.after (w.heap ref) x) := by
  unfold plainCall
  simp only
  cases code.train (w.heap ref) x with
  | error e => exact ⟨rfl, trivial, fun r h => if_neg h, Or.inr (if_pos rfl)⟩
  | ok v => exact ⟨rfl, trivial, fun r h => if_neg h, Or.inr (if_pos rfl)⟩

theorem cached_hcall {X α : Type} (code : Code S X α) (x : X) (ref : Nat) (w : World S X α) (h : Sound code w.store) :
    (cachedCall code x ref .none w).1 = toOutcome (code.train (w.heap ref) x) ∧
      Sound code (cachedCall code x ref .none w).2.store ∧
      (∀ r, r ≠ ref → (cachedCall code x ref .none w).2.heap r = w.heap r) ∧
      ((cachedCall code x ref .none w).2.heap ref = w.heap ref ∨
        (cachedCall code x ref .none w).2.heap ref = code.after (w.heap ref) x) := by
  obtain ⟨h1, h2⟩ := cachedCall_heap code x ref .none w
  exact ⟨cachedCall_result h, cachedCall_sound h, h1, h2.imp And.left And.left⟩

/-! ### Classification -/

section
variable {est : S → Classif.Estimator D} {after : S → ClassData D → S}

theorem class_pure (xTrain : Classif.Features D) (yTrain : LabelVec) (xTest : Classif.Features D) (nLabels : Nat)
    (methods : List (Str × Nat)) (minLogProb : Flt ℝ) (heap : Nat → S) :
    Classif.getPredLogProb xTrain yTrain xTest nLabels (methods.map fun m => (m.1, est (heap m.2))) minLogProb =
      (do
        let nTest ← Classif.predChecks xTrain yTrain xTest nLabels minLogProb
        let cols ← methods.foldlM (fun s m => do
          let v ← Classif.trainPredict xTrain yTrain xTest (est (heap m.2))
          Classif.storeProb nTest nLabels minLogProb s m.1 v)
          (emptyCols nTest (product (methods.map fun m => m.1) (rangeList nLabels)))
        return ⟨sortLevel (methods.map fun m => m.1), rangeList nLabels, nTest, cols⟩) := by
  unfold Classif.getPredLogProb
  simp only [List.foldlM_map, List.map_map, Function.comp_def, Classif.predStep]

/-- The function is its checks followed by the loop. -/
theorem class_cases (xTrain : Classif.Features D) (yTrain : LabelVec) (xTest : Classif.Features D) (nLabels : Nat)
    (methods : List (Str × Nat)) (minLogProb : Flt ℝ) (faults : List Fault) (w : World S (ClassData D) (Mat ℝ)) :
    (∃ e, getPredLogProbWith (cachedCall (classCode est after)) xTrain yTrain xTest nLabels methods minLogProb faults w = (.exc e, w)) ∨
      ∃ k, (getPredLogProbWith (cachedCall (classCode est after)) xTrain yTrain xTest nLabels methods minLogProb faults w).2 = (methodsLoop
          (cachedCall (classCode est after) (xTrain, yTrain, xTest)) (Classif.storeProb k nLabels minLogProb) methods faults
          (emptyCols k (product (methods.map fun m => m.1) (rangeList nLabels))) w).2 ∧
        ((getPredLogProbWith (cachedCall (classCode est after)) xTrain yTrain xTest nLabels methods minLogProb faults w).1 = .crash ↔ (methodsLoop
          (cachedCall (classCode est after) (xTrain, yTrain, xTest)) (Classif.storeProb k nLabels minLogProb) methods faults
          (emptyCols k (product (methods.map fun m => m.1) (rangeList nLabels))) w).1 = .crash) ∧
        ∀ t, (getPredLogProbWith (cachedCall (classCode est after)) xTrain yTrain xTest nLabels methods minLogProb faults w).1 = .ok t → ∃ s, (methodsLoop
          (cachedCall (classCode est after) (xTrain, yTrain, xTest)) (Classif.storeProb k nLabels minLogProb) methods faults
          (emptyCols k (product (methods.map fun m => m.1) (rangeList nLabels))) w).1 = .ok s := by
  unfold getPredLogProbWith
  rcases runWith_world (Classif.predChecks xTrain yTrain xTest nLabels minLogProb)
      (fun nTest => methodsLoop (cachedCall (classCode est after) (xTrain, yTrain, xTest))
        (Classif.storeProb nTest nLabels minLogProb) methods faults
        (emptyCols nTest (product (methods.map fun m => m.1) (rangeList nLabels))) w)
      (fun nTest cols => (⟨sortLevel (methods.map fun m => m.1), rangeList nLabels, nTest, cols⟩ : PredTable ℝ)) w with
      ⟨e, -, hr⟩ | ⟨k, -, hr, hr', hr''⟩
  · exact Or.inl ⟨e, hr⟩
  · refine Or.inr ⟨k, hr, hr', fun t ht => ?_⟩
    obtain ⟨s, hs, -⟩ := (hr'' t).1 ht
    exact ⟨s, hs⟩

/-- Every result in the directory is what the estimator predicts. -/
theorem class_sound {st : Store (S × ClassData D) (Mat ℝ)} (h : ClassHistory est after st) :
    Sound (classCode est after) st := by
  induction h with
  | empty => intro k v hv; cases hv
  | @run st h xTrain yTrain xTest nLabels methods minLogProb faults heap trained ih =>
    rcases class_cases (est := est) (after := after) xTrain yTrain xTest nLabels methods minLogProb faults
      ⟨heap, st, trained⟩ with ⟨e, h⟩ | ⟨k, h, -⟩
    · rw [h]; exact ih
    · rw [h]; exact loop_sound (w := ⟨heap, st, trained⟩) ih
  | loss _ st' hl ih => intro k v hv; exact ih k v (hl k v hv)

/-- **C90, stored results.**  Whatever has happened before, a usable result in the directory is what the estimator
predicts from the data. -/
theorem C90_class_sound {st : Store (S × ClassData D) (Mat ℝ)} (h : ClassHistory est after st) {s : S}
    {xTrain : Classif.Features D} {yTrain : LabelVec} {xTest : Classif.Features D} {p : (Mat ℝ)}
    (hp : st (s, xTrain, yTrain, xTest) = .good p) : Predicts xTrain yTrain xTest (est s) p :=
  (trainPredict_ok_iff _ _ _ _ _).1 (class_sound h _ _ hp)

/-- **C90, without checkpoints.**  For distinct objects, or if training an object a second time makes no difference,
running the methods one after the other is the same as treating them as functions of the data. -/
theorem C90_class_plain (xTrain : Classif.Features D) (yTrain : LabelVec) (xTest : Classif.Features D) (nLabels : Nat)
    (methods : List (Str × Nat)) (minLogProb : Flt ℝ)
    (hd : (methods.map fun m => m.2).Nodup ∨ ∀ s, Classif.trainPredict xTrain yTrain xTest
      (est (after s (xTrain, yTrain, xTest))) = Classif.trainPredict xTrain yTrain xTest (est s))
    (w : World S (ClassData D) (Mat ℝ)) :
    (getPredLogProbWith (plainCall (classCode est after)) xTrain yTrain xTest nLabels methods minLogProb [] w).1 =
      toOutcome (Classif.getPredLogProb xTrain yTrain xTest nLabels (methods.map fun m => (m.1, est (w.heap m.2)))
        minLogProb) := by
  rw [class_pure]
  unfold getPredLogProbWith
  exact runWith_result _ _ _ _ (fun nTest => methods.foldlM (fun s m => do
          let v ← Classif.trainPredict xTrain yTrain xTest (est (w.heap m.2))
          Classif.storeProb nTest nLabels minLogProb s m.1 v)
          (emptyCols nTest (product (methods.map fun m => m.1) (rangeList nLabels)))) fun nTest =>
    loop_result (code := classCode est after) (x := (xTrain, yTrain, xTest)) methods _ w
      (fun r => Classif.trainPredict xTrain yTrain xTest (est (w.heap r))) _ (fun _ => True)
      (plain_hcall _ _) trivial (fun _ _ => rfl) hd

/-- **C90, resuming.**  After any history of the checkpoint directory (runs that completed, failed, or died at any
point, on any data, and lost or damaged results) a run that does not die returns the same table, or raises the same
exception, as a run without checkpoints.  The objects are distinct, or training one a second time makes no
difference. -/
theorem C90_class_resume {st : Store (S × ClassData D) (Mat ℝ)} (h : ClassHistory est after st)
    (xTrain : Classif.Features D) (yTrain : LabelVec) (xTest : Classif.Features D) (nLabels : Nat)
    (methods : List (Str × Nat)) (minLogProb : Flt ℝ)
    (hd : (methods.map fun m => m.2).Nodup ∨ ∀ s, Classif.trainPredict xTrain yTrain xTest
      (est (after s (xTrain, yTrain, xTest))) = Classif.trainPredict xTrain yTrain xTest (est s))
    (heap : Nat → S) (trained : List (S × ClassData D)) :
    (getPredLogProbWith (cachedCall (classCode est after)) xTrain yTrain xTest nLabels methods minLogProb []
      ⟨heap, st, trained⟩).1 =
      toOutcome (Classif.getPredLogProb xTrain yTrain xTest nLabels (methods.map fun m => (m.1, est (heap m.2)))
        minLogProb) := by
  rw [class_pure]
  unfold getPredLogProbWith
  exact runWith_result _ _ _ _ (fun nTest => methods.foldlM (fun s m => do
          let v ← Classif.trainPredict xTrain yTrain xTest (est (heap m.2))
          Classif.storeProb nTest nLabels minLogProb s m.1 v)
          (emptyCols nTest (product (methods.map fun m => m.1) (rangeList nLabels)))) fun nTest =>
    loop_result (code := classCode est after) (x := (xTrain, yTrain, xTest)) methods _ ⟨heap, st, trained⟩
      (fun r => Classif.trainPredict xTrain yTrain xTest (est (heap r))) _ (fun w => Sound (classCode est after) w.store)
      (cached_hcall _ _) (class_sound h) (fun _ _ => rfl) hd

/-- **C90, what is trained.**  A run, even one that dies or fails, trains only methods without a usable result, and
no two with the same state and data.  If it returns, then it has trained all methods without a result, and all methods
have results afterwards. -/
theorem C90_class_trained (xTrain : Classif.Features D) (yTrain : LabelVec) (xTest : Classif.Features D) (nLabels : Nat)
    {methods : List (Str × Nat)} (minLogProb : Flt ℝ) (hd : (methods.map fun m => m.2).Nodup)
    (faults : List Fault) (w : World S (ClassData D) (Mat ℝ)) {o : Outcome (PredTable ℝ)} {w' : World S (ClassData D) (Mat ℝ)}
    (h : getPredLogProbWith (cachedCall (classCode est after)) xTrain yTrain xTest nLabels methods minLogProb faults w = (o, w')) :
    ∃ new, w'.trained = w.trained ++ new ∧ new.Nodup ∧
      (∀ k ∈ new, (∃ m ∈ methods, k = (w.heap m.2, xTrain, yTrain, xTest)) ∧ ¬ HasResult w.store k) ∧
      (∀ t, o = .ok t → (∀ m ∈ methods, ¬ HasResult w.store (w.heap m.2, xTrain, yTrain, xTest) →
          (w.heap m.2, xTrain, yTrain, xTest) ∈ new) ∧
        ∀ m ∈ methods, HasResult w'.store (w.heap m.2, xTrain, yTrain, xTest)) := by
  rcases class_cases (est := est) (after := after) xTrain yTrain xTest nLabels methods minLogProb faults w with
    ⟨e, hr⟩ | ⟨k, hr, -, hr'⟩
  · rw [hr, Prod.mk.injEq] at h
    obtain ⟨rfl, rfl⟩ := h
    exact ⟨[], by simp, by simp, by simp, by simp⟩
  · rw [h] at hr hr'
    simp only at hr hr'
    subst hr
    obtain ⟨new, a, b, c, d⟩ := loop_trained (code := classCode est after) (x := (xTrain, yTrain, xTest))
      (body := Classif.storeProb k nLabels minLogProb) hd faults
      (emptyCols k (product (methods.map fun m => m.1) (rangeList nLabels))) w
    refine ⟨new, a, b, c, fun t ht => ?_⟩
    obtain ⟨s, hs⟩ := hr' t ht
    exact d s hs

/-- **C90, usable results stay.**  No run, however it ends, removes or changes a usable result. -/
theorem C90_class_monotone (xTrain : Classif.Features D) (yTrain : LabelVec) (xTest : Classif.Features D) (nLabels : Nat)
    (methods : List (Str × Nat)) (minLogProb : Flt ℝ) (faults : List Fault) (w : World S (ClassData D) (Mat ℝ))
    {k : S × ClassData D} {v : (Mat ℝ)} (hk : w.store k = .good v) :
    (getPredLogProbWith (cachedCall (classCode est after)) xTrain yTrain xTest nLabels methods minLogProb faults w).2.store k = .good v := by
  rcases class_cases (est := est) (after := after) xTrain yTrain xTest nLabels methods minLogProb faults w with
    ⟨e, hr⟩ | ⟨n, hr, -⟩
  · rw [hr]; exact hk
  · rw [hr]; exact loop_mono hk

/-- **C90, progress.**  A run that dies does so at the first fault, and the methods before have their results in the
directory; so has the method at which it died if that was after its result had been written. -/
theorem C90_class_progress (xTrain : Classif.Features D) (yTrain : LabelVec) (xTest : Classif.Features D) (nLabels : Nat)
    {methods : List (Str × Nat)} (minLogProb : Flt ℝ) (hd : (methods.map fun m => m.2).Nodup)
    {faults : List Fault} {w w' : World S (ClassData D) (Mat ℝ)}
    (h : getPredLogProbWith (cachedCall (classCode est after)) xTrain yTrain xTest nLabels methods minLogProb faults w = (.crash, w')) :
    ∃ done f rest, faults = List.replicate done Fault.none ++ f :: rest ∧ f ≠ .none ∧ done < methods.length ∧
      (∀ m ∈ methods.take done, HasResult w'.store (w.heap m.2, xTrain, yTrain, xTest)) ∧
      (f = .afterWrite → ∀ m ∈ methods.take (done + 1), HasResult w'.store (w.heap m.2, xTrain, yTrain, xTest)) := by
  rcases class_cases (est := est) (after := after) xTrain yTrain xTest nLabels methods minLogProb faults w with
    ⟨e, hr⟩ | ⟨k, hr, hr', -⟩
  · rw [hr] at h; cases h
  · rw [h] at hr hr'
    have := loop_crash hd (hr'.1 rfl)
    rw [← hr] at this
    exact this

/-- **C90, state of the objects.**  Only objects of the methods change, and only by being trained.  An object whose
result was loaded is not trained. -/
theorem C90_class_objects (xTrain : Classif.Features D) (yTrain : LabelVec) (xTest : Classif.Features D) (nLabels : Nat)
    {methods : List (Str × Nat)} (minLogProb : Flt ℝ) (hd : (methods.map fun m => m.2).Nodup)
    (faults : List Fault) (w : World S (ClassData D) (Mat ℝ)) (r : Nat) :
    ((getPredLogProbWith (cachedCall (classCode est after)) xTrain yTrain xTest nLabels methods minLogProb faults w).2.heap r = w.heap r ∨
      r ∈ (methods.map fun m => m.2) ∧ ¬ HasResult w.store (w.heap r, xTrain, yTrain, xTest) ∧
      (getPredLogProbWith (cachedCall (classCode est after)) xTrain yTrain xTest nLabels methods minLogProb faults w).2.heap r = after (w.heap r) (xTrain, yTrain, xTest)) := by
  rcases class_cases (est := est) (after := after) xTrain yTrain xTest nLabels methods minLogProb faults w with
    ⟨e, hr⟩ | ⟨k, hr, -⟩
  · rw [hr]; exact Or.inl rfl
  · rw [hr]
    by_cases hm : r ∈ methods.map fun m => m.2
    · obtain ⟨m, hm', rfl⟩ := List.mem_map.1 hm
      have h1 := loop_heap (code := classCode est after) (x := (xTrain, yTrain, xTest))
        (body := Classif.storeProb k nLabels minLogProb) (faults := faults)
        (s := emptyCols k (product (methods.map fun m => m.1) (rangeList nLabels))) (w := w) hd hm'
      by_cases hres : HasResult w.store (w.heap m.2, xTrain, yTrain, xTest)
      · exact Or.inl (h1.2 hres)
      · exact h1.1.imp_right fun h => ⟨hm, hres, h⟩
    · exact Or.inl (loop_heap_other hm)

/-- **C90, nothing left to do.**  If all methods have usable results, nothing is trained, and neither the objects nor the
directory change. -/
theorem C90_class_idle (xTrain : Classif.Features D) (yTrain : LabelVec) (xTest : Classif.Features D) (nLabels : Nat)
    {methods : List (Str × Nat)} (minLogProb : Flt ℝ) (faults : List Fault) {w : World S (ClassData D) (Mat ℝ)}
    (h : ∀ m ∈ methods, HasResult w.store (w.heap m.2, xTrain, yTrain, xTest)) :
    (getPredLogProbWith (cachedCall (classCode est after)) xTrain yTrain xTest nLabels methods minLogProb faults w).2 = w := by
  rcases class_cases (est := est) (after := after) xTrain yTrain xTest nLabels methods minLogProb faults w with
    ⟨e, hr⟩ | ⟨k, hr, -⟩
  · rw [hr]
  · rw [hr, loop_idle h]

end

/-! ### Regression -/

section
variable {est : S → Regr.Estimator D} {after : S → RegrData D → S}

theorem regr_pure (xTrain : Classif.Features D) (yTrain : Regr.Arr) (xTest : Classif.Features D)
    (methods : List (Str × Nat)) (minStd : Flt ℝ) (heap : Nat → S) :
    Regr.getGaussPred xTrain yTrain xTest (methods.map fun m => (m.1, est (heap m.2))) minStd =
      (do
        let nTest ← Regr.predChecks xTrain yTrain xTest minStd
        let cols ← methods.foldlM (fun s m => do
          let v ← Regr.trainPredict xTrain yTrain xTest (est (heap m.2))
          Regr.storePred nTest minStd s m.1 v)
          (emptyCols nTest (product (methods.map fun m => m.1) [Regr.muName, Regr.stdName]))
        return ⟨sortLevel (methods.map fun m => m.1), sortLevel [Regr.muName, Regr.stdName], nTest, cols⟩) := by
  unfold Regr.getGaussPred
  simp only [List.foldlM_map, List.map_map, Function.comp_def, Regr.predStep]

/-- The function is its checks followed by the loop. -/
theorem regr_cases (xTrain : Classif.Features D) (yTrain : Regr.Arr) (xTest : Classif.Features D)
    (methods : List (Str × Nat)) (minStd : Flt ℝ) (faults : List Fault) (w : World S (RegrData D) (Regr.Arr × Regr.Arr)) :
    (∃ e, getGaussPredWith (cachedCall (regrCode est after)) xTrain yTrain xTest methods minStd faults w = (.exc e, w)) ∨
      ∃ k, (getGaussPredWith (cachedCall (regrCode est after)) xTrain yTrain xTest methods minStd faults w).2 = (methodsLoop
          (cachedCall (regrCode est after) (xTrain, yTrain, xTest)) (Regr.storePred k minStd) methods faults
          (emptyCols k (product (methods.map fun m => m.1) [Regr.muName, Regr.stdName])) w).2 ∧
        ((getGaussPredWith (cachedCall (regrCode est after)) xTrain yTrain xTest methods minStd faults w).1 = .crash ↔ (methodsLoop
          (cachedCall (regrCode est after) (xTrain, yTrain, xTest)) (Regr.storePred k minStd) methods faults
          (emptyCols k (product (methods.map fun m => m.1) [Regr.muName, Regr.stdName])) w).1 = .crash) ∧
        ∀ t, (getGaussPredWith (cachedCall (regrCode est after)) xTrain yTrain xTest methods minStd faults w).1 = .ok t → ∃ s, (methodsLoop
          (cachedCall (regrCode est after) (xTrain, yTrain, xTest)) (Regr.storePred k minStd) methods faults
          (emptyCols k (product (methods.map fun m => m.1) [Regr.muName, Regr.stdName])) w).1 = .ok s := by
  unfold getGaussPredWith
  rcases runWith_world (Regr.predChecks xTrain yTrain xTest minStd)
      (fun nTest => methodsLoop (cachedCall (regrCode est after) (xTrain, yTrain, xTest))
        (Regr.storePred nTest minStd) methods faults
        (emptyCols nTest (product (methods.map fun m => m.1) [Regr.muName, Regr.stdName])) w)
      (fun nTest cols => (⟨sortLevel (methods.map fun m => m.1), sortLevel [Regr.muName, Regr.stdName], nTest, cols⟩ : Regr.GaussTable)) w with
      ⟨e, -, hr⟩ | ⟨k, -, hr, hr', hr''⟩
  · exact Or.inl ⟨e, hr⟩
  · refine Or.inr ⟨k, hr, hr', fun t ht => ?_⟩
    obtain ⟨s, hs, -⟩ := (hr'' t).1 ht
    exact ⟨s, hs⟩

/-- Every result in the directory is what the estimator predicts. -/
theorem regr_sound {st : Store (S × RegrData D) (Regr.Arr × Regr.Arr)} (h : RegrHistory est after st) :
    Sound (regrCode est after) st := by
  induction h with
  | empty => intro k v hv; cases hv
  | @run st h xTrain yTrain xTest methods minStd faults heap trained ih =>
    rcases regr_cases (est := est) (after := after) xTrain yTrain xTest methods minStd faults
      ⟨heap, st, trained⟩ with ⟨e, h⟩ | ⟨k, h, -⟩
    · rw [h]; exact ih
    · rw [h]; exact loop_sound (w := ⟨heap, st, trained⟩) ih
  | loss _ st' hl ih => intro k v hv; exact ih k v (hl k v hv)

/-- **C90, stored results.**  Whatever has happened before, a usable result in the directory is what the estimator
predicts from the data. -/
theorem C90_regr_sound {st : Store (S × RegrData D) (Regr.Arr × Regr.Arr)} (h : RegrHistory est after st) {s : S}
    {xTrain : Classif.Features D} {yTrain : Regr.Arr} {xTest : Classif.Features D} {p : (Regr.Arr × Regr.Arr)}
    (hp : st (s, xTrain, yTrain, xTest) = .good p) : PredictsGauss xTrain yTrain xTest (est s) p.1 p.2 :=
  (C88_method _ _ _ _ _ _).1 (regr_sound h _ _ hp)

/-- **C90, without checkpoints.**  For distinct objects, or if training an object a second time makes no difference,
running the methods one after the other is the same as treating them as functions of the data. -/
theorem C90_regr_plain (xTrain : Classif.Features D) (yTrain : Regr.Arr) (xTest : Classif.Features D)
    (methods : List (Str × Nat)) (minStd : Flt ℝ)
    (hd : (methods.map fun m => m.2).Nodup ∨ ∀ s, Regr.trainPredict xTrain yTrain xTest
      (est (after s (xTrain, yTrain, xTest))) = Regr.trainPredict xTrain yTrain xTest (est s))
    (w : World S (RegrData D) (Regr.Arr × Regr.Arr)) :
    (getGaussPredWith (plainCall (regrCode est after)) xTrain yTrain xTest methods minStd [] w).1 =
      toOutcome (Regr.getGaussPred xTrain yTrain xTest (methods.map fun m => (m.1, est (w.heap m.2)))
        minStd) := by
  rw [regr_pure]
  unfold getGaussPredWith
  exact runWith_result _ _ _ _ (fun nTest => methods.foldlM (fun s m => do
          let v ← Regr.trainPredict xTrain yTrain xTest (est (w.heap m.2))
          Regr.storePred nTest minStd s m.1 v)
          (emptyCols nTest (product (methods.map fun m => m.1) [Regr.muName, Regr.stdName]))) fun nTest =>
    loop_result (code := regrCode est after) (x := (xTrain, yTrain, xTest)) methods _ w
      (fun r => Regr.trainPredict xTrain yTrain xTest (est (w.heap r))) _ (fun _ => True)
      (plain_hcall _ _) trivial (fun _ _ => rfl) hd

/-- **C90, resuming.**  After any history of the checkpoint directory (runs that completed, failed, or died at any
point, on any data, and lost or damaged results) a run that does not die returns the same table, or raises the same
exception, as a run without checkpoints.  The objects are distinct, or training one a second time makes no
difference. -/
theorem C90_regr_resume {st : Store (S × RegrData D) (Regr.Arr × Regr.Arr)} (h : RegrHistory est after st)
    (xTrain : Classif.Features D) (yTrain : Regr.Arr) (xTest : Classif.Features D)
    (methods : List (Str × Nat)) (minStd : Flt ℝ)
    (hd : (methods.map fun m => m.2).Nodup ∨ ∀ s, Regr.trainPredict xTrain yTrain xTest
      (est (after s (xTrain, yTrain, xTest))) = Regr.trainPredict xTrain yTrain xTest (est s))
    (heap : Nat → S) (trained : List (S × RegrData D)) :
    (getGaussPredWith (cachedCall (regrCode est after)) xTrain yTrain xTest methods minStd []
      ⟨heap, st, trained⟩).1 =
      toOutcome (Regr.getGaussPred xTrain yTrain xTest (methods.map fun m => (m.1, est (heap m.2)))
        minStd) := by
  rw [regr_pure]
  unfold getGaussPredWith
  exact runWith_result _ _ _ _ (fun nTest => methods.foldlM (fun s m => do
          let v ← Regr.trainPredict xTrain yTrain xTest (est (heap m.2))
          Regr.storePred nTest minStd s m.1 v)
          (emptyCols nTest (product (methods.map fun m => m.1) [Regr.muName, Regr.stdName]))) fun nTest =>
    loop_result (code := regrCode est after) (x := (xTrain, yTrain, xTest)) methods _ ⟨heap, st, trained⟩
      (fun r => Regr.trainPredict xTrain yTrain xTest (est (heap r))) _ (fun w => Sound (regrCode est after) w.store)
      (cached_hcall _ _) (regr_sound h) (fun _ _ => rfl) hd

/-- **C90, what is trained.**  A run, even one that dies or fails, trains only methods without a usable result, and
no two with the same state and data.  If it returns, then it has trained all methods without a result, and all methods
have results afterwards. -/
theorem C90_regr_trained (xTrain : Classif.Features D) (yTrain : Regr.Arr) (xTest : Classif.Features D)
    {methods : List (Str × Nat)} (minStd : Flt ℝ) (hd : (methods.map fun m => m.2).Nodup)
    (faults : List Fault) (w : World S (RegrData D) (Regr.Arr × Regr.Arr)) {o : Outcome Regr.GaussTable} {w' : World S (RegrData D) (Regr.Arr × Regr.Arr)}
    (h : getGaussPredWith (cachedCall (regrCode est after)) xTrain yTrain xTest methods minStd faults w = (o, w')) :
    ∃ new, w'.trained = w.trained ++ new ∧ new.Nodup ∧
      (∀ k ∈ new, (∃ m ∈ methods, k = (w.heap m.2, xTrain, yTrain, xTest)) ∧ ¬ HasResult w.store k) ∧
      (∀ t, o = .ok t → (∀ m ∈ methods, ¬ HasResult w.store (w.heap m.2, xTrain, yTrain, xTest) →
          (w.heap m.2, xTrain, yTrain, xTest) ∈ new) ∧
        ∀ m ∈ methods, HasResult w'.store (w.heap m.2, xTrain, yTrain, xTest)) := by
  rcases regr_cases (est := est) (after := after) xTrain yTrain xTest methods minStd faults w with
    ⟨e, hr⟩ | ⟨k, hr, -, hr'⟩
  · rw [hr, Prod.mk.injEq] at h
    obtain ⟨rfl, rfl⟩ := h
    exact ⟨[], by simp, by simp, by simp, by simp⟩
  · rw [h] at hr hr'
    simp only at hr hr'
    subst hr
    obtain ⟨new, a, b, c, d⟩ := loop_trained (code := regrCode est after) (x := (xTrain, yTrain, xTest))
      (body := Regr.storePred k minStd) hd faults
      (emptyCols k (product (methods.map fun m => m.1) [Regr.muName, Regr.stdName])) w
    refine ⟨new, a, b, c, fun t ht => ?_⟩
    obtain ⟨s, hs⟩ := hr' t ht
    exact d s hs

/-- **C90, usable results stay.**  No run, however it ends, removes or changes a usable result. -/
theorem C90_regr_monotone (xTrain : Classif.Features D) (yTrain : Regr.Arr) (xTest : Classif.Features D)
    (methods : List (Str × Nat)) (minStd : Flt ℝ) (faults : List Fault) (w : World S (RegrData D) (Regr.Arr × Regr.Arr))
    {k : S × RegrData D} {v : (Regr.Arr × Regr.Arr)} (hk : w.store k = .good v) :
    (getGaussPredWith (cachedCall (regrCode est after)) xTrain yTrain xTest methods minStd faults w).2.store k = .good v := by
  rcases regr_cases (est := est) (after := after) xTrain yTrain xTest methods minStd faults w with
    ⟨e, hr⟩ | ⟨n, hr, -⟩
  · rw [hr]; exact hk
  · rw [hr]; exact loop_mono hk

/-- **C90, progress.**  A run that dies does so at the first fault, and the methods before have their results in the
directory; so has the method at which it died if that was after its result had been written. -/
theorem C90_regr_progress (xTrain : Classif.Features D) (yTrain : Regr.Arr) (xTest : Classif.Features D)
    {methods : List (Str × Nat)} (minStd : Flt ℝ) (hd : (methods.map fun m => m.2).Nodup)
    {faults : List Fault} {w w' : World S (RegrData D) (Regr.Arr × Regr.Arr)}
    (h : getGaussPredWith (cachedCall (regrCode est after)) xTrain yTrain xTest methods minStd faults w = (.crash, w')) :
    ∃ done f rest, faults = List.replicate done Fault.none ++ f :: rest ∧ f ≠ .none ∧ done < methods.length ∧
      (∀ m ∈ methods.take done, HasResult w'.store (w.heap m.2, xTrain, yTrain, xTest)) ∧
      (f = .afterWrite → ∀ m ∈ methods.take (done + 1), HasResult w'.store (w.heap m.2, xTrain, yTrain, xTest)) := by
  rcases regr_cases (est := est) (after := after) xTrain yTrain xTest methods minStd faults w with
    ⟨e, hr⟩ | ⟨k, hr, hr', -⟩
  · rw [hr] at h; cases h
  · rw [h] at hr hr'
    have := loop_crash hd (hr'.1 rfl)
    rw [← hr] at this
    exact this

/-- **C90, state of the objects.**  Only objects of the methods change, and only by being trained.  An object whose
result was loaded is not trained. -/
theorem C90_regr_objects (xTrain : Classif.Features D) (yTrain : Regr.Arr) (xTest : Classif.Features D)
    {methods : List (Str × Nat)} (minStd : Flt ℝ) (hd : (methods.map fun m => m.2).Nodup)
    (faults : List Fault) (w : World S (RegrData D) (Regr.Arr × Regr.Arr)) (r : Nat) :
    ((getGaussPredWith (cachedCall (regrCode est after)) xTrain yTrain xTest methods minStd faults w).2.heap r = w.heap r ∨
      r ∈ (methods.map fun m => m.2) ∧ ¬ HasResult w.store (w.heap r, xTrain, yTrain, xTest) ∧
      (getGaussPredWith (cachedCall (regrCode est after)) xTrain yTrain xTest methods minStd faults w).2.heap r = after (w.heap r) (xTrain, yTrain, xTest)) := by
  rcases regr_cases (est := est) (after := after) xTrain yTrain xTest methods minStd faults w with
    ⟨e, hr⟩ | ⟨k, hr, -⟩
  · rw [hr]; exact Or.inl rfl
  · rw [hr]
    by_cases hm : r ∈ methods.map fun m => m.2
    · obtain ⟨m, hm', rfl⟩ := List.mem_map.1 hm
      have h1 := loop_heap (code := regrCode est after) (x := (xTrain, yTrain, xTest))
        (body := Regr.storePred k minStd) (faults := faults)
        (s := emptyCols k (product (methods.map fun m => m.1) [Regr.muName, Regr.stdName])) (w := w) hd hm'
      by_cases hres : HasResult w.store (w.heap m.2, xTrain, yTrain, xTest)
      · exact Or.inl (h1.2 hres)
      · exact h1.1.imp_right fun h => ⟨hm, hres, h⟩
    · exact Or.inl (loop_heap_other hm)

/-- **C90, nothing left to do.**  If all methods have usable results, nothing is trained, and neither the objects nor the
directory change. -/
theorem C90_regr_idle (xTrain : Classif.Features D) (yTrain : Regr.Arr) (xTest : Classif.Features D)
    {methods : List (Str × Nat)} (minStd : Flt ℝ) (faults : List Fault) {w : World S (RegrData D) (Regr.Arr × Regr.Arr)}
    (h : ∀ m ∈ methods, HasResult w.store (w.heap m.2, xTrain, yTrain, xTest)) :
    (getGaussPredWith (cachedCall (regrCode est after)) xTrain yTrain xTest methods minStd faults w).2 = w := by
  rcases regr_cases (est := est) (after := after) xTrain yTrain xTest methods minStd faults w with
    ⟨e, hr⟩ | ⟨k, hr, -⟩
  · rw [hr]
  · rw [hr, loop_idle h]

end

/-! ### A second call in the same process -/

/-- **C90, a fitted object is another object.**  The key of a result contains the state of the object before the call.  So
a second call with the same object and the same data trains it again, if training has changed the object and there is
no result for the changed object. -/
theorem C90_refit {X α : Type} (code : Code S X α) (x : X) (ref : Nat) {w : World S X α} {v : α}
    (hv : code.train (w.heap ref) x = .ok v) (h : ¬ HasResult w.store (w.heap ref, x))
    (hs : code.after (w.heap ref) x ≠ w.heap ref) (h' : ¬ HasResult w.store (code.after (w.heap ref) x, x)) :
    (cachedCall code x ref .none w).1 = .ok v ∧
      (cachedCall code x ref .none (cachedCall code x ref .none w).2).2.trained =
        w.trained ++ [(w.heap ref, x), (code.after (w.heap ref) x, x)] := by
  have hc : cachedCall code x ref .none w = computeAndStore code x ref .none w := by
    unfold cachedCall
    cases hk : w.store (w.heap ref, x) with
    | good u => exact absurd ⟨u, hk⟩ h
    | missing => rfl
    | corrupt => rfl
  have hc' : computeAndStore code x ref .none w = persist .none (w.heap ref, x) v (w.touch code x ref) := by
    unfold computeAndStore
    simp only [hv]
  rw [hc, hc']
  refine ⟨rfl, ?_⟩
  have hh : (persist .none (w.heap ref, x) v (w.touch code x ref)).2.heap ref = code.after (w.heap ref) x := if_pos rfl
  have hst : (persist .none (w.heap ref, x) v (w.touch code x ref)).2.store (code.after (w.heap ref) x, x) =
      w.store (code.after (w.heap ref) x, x) := by
    show write w.store (w.heap ref, x) (.good v) _ = _
    exact write_ne _ _ (fun hk => hs (congrArg Prod.fst hk))
  have hc2 : cachedCall code x ref .none (persist .none (w.heap ref, x) v (w.touch code x ref)).2 =
      computeAndStore code x ref .none (persist .none (w.heap ref, x) v (w.touch code x ref)).2 := by
    unfold cachedCall
    rw [hh, hst]
    cases hk : w.store (code.after (w.heap ref) x, x) with
    | good u => exact absurd ⟨u, hk⟩ h'
    | missing => rfl
    | corrupt => rfl
  rw [hc2]
  unfold computeAndStore
  rw [hh]
  cases code.train (code.after (w.heap ref) x) x with
  | ok u => simp [persist, World.touch]
  | error e => simp [persist, World.touch]

/-! ### Examples

The state of an object is whether it was fitted, and the predictions do not depend on it. -/

example : (cachedCall (classCode (fun _ : Bool => exampleEst) fun _ _ => true) (exampleTrain, exampleY, exampleTest) 0 .none
    (cachedCall (classCode (fun _ : Bool => exampleEst) fun _ _ => true) (exampleTrain, exampleY, exampleTest) 0 .none
      ⟨fun _ => false, fun _ => .missing, []⟩).2).2.trained =
    [(false, exampleTrain, exampleY, exampleTest), (true, exampleTrain, exampleY, exampleTest)] :=
  (C90_refit (classCode (fun _ : Bool => exampleEst) fun _ _ => true) (exampleTrain, exampleY, exampleTest) 0
    (w := ⟨fun _ => false, fun _ => .missing, []⟩)
    ((trainPredict_ok_iff _ _ _ _ _).2 examplePredicts) (by rintro ⟨v, ⟨⟩⟩) (by simp [classCode])
    (by rintro ⟨v, ⟨⟩⟩)).2

/-- A run that dies while the result of its second method is written leaves a directory that is covered by the theorems. -/
noncomputable def exampleStore : Store (Bool × ClassData Unit) (Mat ℝ) :=
  (getPredLogProbWith (cachedCall (classCode (fun _ : Bool => exampleEst) fun _ _ => true)) exampleTrain exampleY
    exampleTest 2 [("a".toList, 0), ("b".toList, 1)] (.fin (-2)) [.none, .midWrite] ⟨fun _ => false, fun _ => .missing, []⟩).2.store

theorem exampleHistory : ClassHistory (fun _ : Bool => exampleEst) (fun _ _ => true) exampleStore :=
  .run .empty _ _ _ _ _ _ _ _ _

/-- After that crash a run with other methods, another floor and new objects gives the table of a run without
checkpoints. -/
example : (getPredLogProbWith (cachedCall (classCode (fun _ : Bool => exampleEst) fun _ _ => true)) exampleTrain exampleY
      exampleTest 2 [("a".toList, 5)] (.fin (-2)) [] ⟨fun _ => false, exampleStore, []⟩).1 =
    toOutcome (Classif.getPredLogProb exampleTrain exampleY exampleTest 2 [("a".toList, exampleEst)] (.fin (-2))) :=
  C90_class_resume exampleHistory exampleTrain exampleY exampleTest 2 [("a".toList, 5)] _ (Or.inl (by simp)) _ _

/-- That table exists. -/
example : ∃ t, (getPredLogProbWith (cachedCall (classCode (fun _ : Bool => exampleEst) fun _ _ => true)) exampleTrain
      exampleY exampleTest 2 [("a".toList, 5)] (.fin (-2)) [] ⟨fun _ => false, exampleStore, []⟩).1 = .ok t := by
  obtain ⟨t, ht⟩ := C81_success (methods := [("a".toList, exampleEst)]) (exampleGood (.fin (-2)) (by norm_num))
    (by simpa using ⟨_, examplePredicts, rfl, rfl⟩)
  refine ⟨t, ?_⟩
  rw [C90_class_resume exampleHistory exampleTrain exampleY exampleTest 2 [("a".toList, 5)] _ (Or.inl (by simp)) _ _]
  simp only [List.map_cons, List.map_nil, ht]
  rfl

/-- The same for regression. -/
example : ∃ t, (getGaussPredWith (cachedCall (regrCode (fun b : Bool => if b then meanOnly else meanOnly) fun _ _ => true))
      regrTrain (realArr [4, 4, 4]) regrTest [("noise".toList, 0), ("mean".toList, 1)] (.fin (1 / 2)) []
      ⟨fun _ => false, (getGaussPredWith (cachedCall (regrCode (fun b : Bool => if b then meanOnly else meanOnly)
        fun _ _ => true)) regrTrain (realArr [4, 4, 4]) regrTest [("mean".toList, 1)] (.fin 0) [.afterWrite]
        ⟨fun _ => false, fun _ => .missing, []⟩).2.store, []⟩).1 =
      toOutcome t ∧ t = Regr.getGaussPred regrTrain (realArr [4, 4, 4]) regrTest
        [("noise".toList, meanOnly), ("mean".toList, meanOnly)] (.fin (1 / 2)) :=
  ⟨_, C90_regr_resume (.run .empty _ _ _ _ _ _ _ _) _ _ _ _ _ (Or.inl (by simp)) _ _, by simp⟩

end Mlp.Props
