import Verif.Props.ClassPred
import Verif.Props.RegrTable
import Verif.Props.RegrNoise

/-! # Property C88: the prediction tables of `get_gauss_pred` -/

namespace Mlp.Props
open Mlp.Util Mlp.Spec Mlp.Regr Mlp.Lemmas Mlp.Frame
open Mlp.Classif (Features shapeAt)

variable {D : Type}

/-! ### What a method predicts -/

/-- What the estimator predicts: its means and standard deviations, or its means and standard deviations 1 if its
`predict` does not know `return_std`. -/
def PredictsGauss (xTrain : Features D) (yTrain : Arr) (xTest : Features D) (e : Regr.Estimator D) (mu std : Arr) : Prop :=
  ∃ f, e xTrain yTrain = .ok f ∧
    (f.predictStd xTest = .ok (mu, std) ∨
      f.predictStd xTest = .error .typeError ∧ f.predict xTest = .ok mu ∧ std.shape = mu.shape ∧
        std.data.length = mu.data.length ∧ ∀ v ∈ std.data, v = .fin 1)

/-- **C88, one method.**  `train_predict` returns what the estimator predicts. -/
theorem C88_method (xTrain : Features D) (yTrain : Arr) (xTest : Features D) (e : Regr.Estimator D) (mu std : Arr) :
    Regr.trainPredict xTrain yTrain xTest e = .ok (mu, std) ↔ PredictsGauss xTrain yTrain xTest e mu std := by
  unfold Regr.trainPredict PredictsGauss
  rw [bind_ok_iff]
  refine exists_congr fun f => and_congr_right fun _ => ?_
  unfold Regr.predictOf
  split
  · rename_i r h; rw [h]; simp
  · rename_i h
    rw [h]
    simp only [reduceCtorEq, false_or, true_and]
    cases h' : f.predict xTest with
    | error e => simp
    | ok mu' =>
      simp only [Except.ok.injEq, Prod.mk.injEq]
      unfold onesLike
      constructor
      · rintro ⟨rfl, rfl⟩
        refine ⟨rfl, rfl, by simp, fun v hv => List.eq_of_mem_replicate hv⟩
      · rintro ⟨rfl, h1, h2, h3⟩
        refine ⟨rfl, ?_⟩
        cases std
        simp only [Arr.mk.injEq] at *
        exact ⟨h1.symm, (List.eq_replicate_iff.2 ⟨h2, h3⟩).symm⟩
  · rename_i e hne h
    rw [h]
    simp only [reduceCtorEq, false_or, Except.error.injEq, false_iff]
    rintro ⟨rfl, -⟩
    exact hne rfl

/-- **C88, exceptions of a method.**  An exception of `fit` is passed on; so is an exception of `predict` with
`return_std`, unless it is a TypeError; after a TypeError an exception of the plain `predict` is passed on. -/
theorem C88_method_error (xTrain : Features D) (yTrain : Arr) (xTest : Features D) (e : Regr.Estimator D) (err : PyErr) :
    Regr.trainPredict xTrain yTrain xTest e = .error err ↔
      e xTrain yTrain = .error err ∨ ∃ f, e xTrain yTrain = .ok f ∧
        (f.predictStd xTest = .error err ∧ err ≠ .typeError ∨
          f.predictStd xTest = .error .typeError ∧ f.predict xTest = .error err) := by
  unfold Regr.trainPredict
  cases h : e xTrain yTrain with
  | error e' => simp [error_bind]
  | ok f =>
    rw [ok_bind]
    simp only [reduceCtorEq, false_or, Except.ok.injEq, exists_eq_left']
    unfold Regr.predictOf
    split
    · rename_i r h; rw [h]; simp
    · rename_i h
      rw [h]
      cases h' : f.predict xTest with
      | error e => simp; rintro rfl hn; exact absurd rfl hn
      | ok mu => simp; rintro rfl; rfl
    · rename_i e' hne h
      rw [h]
      simp only [Except.error.injEq]
      constructor
      · rintro rfl; exact Or.inl ⟨rfl, fun e => hne (e ▸ rfl)⟩
      · rintro (⟨rfl, -⟩ | ⟨rfl, -⟩)
        · rfl
        · exact absurd rfl hne

/-! ### The checks -/

/-- The shapes and kinds that `get_gauss_pred` insists on. -/
structure GoodRegr (xTrain : Features D) (yTrain : Arr) (xTest : Features D) (minStd : Flt ℝ) (nTest : Nat) : Prop where
  shapes : ∃ nTrain d, xTrain.shape = [nTrain, d] ∧ yTrain.shape = [nTrain] ∧ xTest.shape = [nTest, d]
  pos : 0 < nTest
  same : xTrain.kind = xTest.kind
  floor : minStd ≠ .nan ∧ Flt.fin 0 ≤ minStd

/-- **C88, checks.**  The checks succeed exactly for data of the documented form. -/
theorem C88_checks (xTrain : Features D) (yTrain : Arr) (xTest : Features D) (minStd : Flt ℝ) (nTest : Nat) :
    Regr.predChecks xTrain yTrain xTest minStd = .ok nTest ↔ GoodRegr xTrain yTrain xTest minStd nTest := by
  unfold Regr.predChecks
  simp only [bind_ok_iff, exists_unit, pyAssert_eq_ok, shapeAt_ok_iff, decide_eq_true_eq, pure_eq_ok, Except.ok.injEq,
    Flt.le_iff]
  constructor
  · rintro ⟨n, h1, h2, h3, nt, h4, h5, h6, a, h7, b, h8, rfl, h9, h10, rfl⟩
    refine ⟨?_, h2, h9, h10⟩
    rcases e1 : xTest.shape with _ | ⟨x, _ | ⟨d, _ | ⟨_, rest⟩⟩⟩
    · rw [e1] at h6; simp at h6
    · rw [e1] at h6; simp at h6
    · rcases e2 : xTrain.shape with _ | ⟨x', _ | ⟨d', _ | ⟨_, rest'⟩⟩⟩
      · rw [e2] at h3; simp at h3
      · rw [e2] at h3; simp at h3
      · rw [e1] at h1 h7
        rw [e2] at h4 h8
        simp at h1 h7 h4 h8
        subst h1 h7 h4 h8
        exact ⟨_, _, rfl, h5, rfl⟩
      · rw [e2] at h3; simp at h3
    · rw [e1] at h6; simp at h6
  · rintro ⟨⟨nTrain, d, e1, e2, e3⟩, h2, h3, h4⟩
    exact ⟨nTest, by simp [e3], h2, by simp [e1], nTrain, by simp [e1], e2, by simp [e3], d, by simp [e3], d,
      by simp [e1], rfl, h3, h4, rfl⟩

/-- **C88, rejections.**  If there is a first dimension of the test data, unsuitable data raise an AssertionError whatever
the methods are (and before any method is trained). -/
theorem C88_reject {xTrain : Features D} {yTrain : Arr} {xTest : Features D} {minStd : Flt ℝ} (hx : xTest.shape ≠ [])
    (h : ¬ ∃ n, GoodRegr xTrain yTrain xTest minStd n) (methods : List (Str × Regr.Estimator D)) :
    getGaussPred xTrain yTrain xTest methods minStd = .error .assertion := by
  have key : Regr.predChecks xTrain yTrain xTest minStd = .error .assertion := by
    cases he : Regr.predChecks xTrain yTrain xTest minStd with
    | ok n => exact absurd ⟨n, (C88_checks ..).1 he⟩ h
    | error e =>
      rw [← he]
      obtain ⟨n, l, e1⟩ := List.exists_cons_of_ne_nil hx
      unfold Regr.predChecks
      rw [show shapeAt xTest 0 = .ok n by simp [shapeAt, e1], ok_bind, pyAssert_bind]
      split
      · rw [pyAssert_bind]
        split
        · rename_i h2
          rw [decide_eq_true_eq, List.length_eq_two] at h2
          obtain ⟨a, b, e2⟩ := h2
          rw [show shapeAt xTrain 0 = .ok a by simp [shapeAt, e2], ok_bind, pyAssert_bind]
          split
          · rw [pyAssert_bind]
            split
            · rename_i h3
              rw [decide_eq_true_eq, List.length_eq_two] at h3
              obtain ⟨a', b', e3⟩ := h3
              rw [show shapeAt xTest 1 = .ok b' by simp [shapeAt, e3], ok_bind,
                show shapeAt xTrain 1 = .ok b by simp [shapeAt, e2], ok_bind, pyAssert_bind]
              split
              · rw [pyAssert_bind]
                split
                · rw [pyAssert_bind]
                  split
                  · rename_i g1 g3 g4 g5 g6
                    rw [decide_eq_true_eq] at g1 g3 g4 g5
                    rw [Flt.le_iff] at g6
                    rw [e3, List.cons.injEq] at e1
                    exact absurd ⟨n, ⟨a, b, e2, g3, by rw [e3, e1.1, g4]⟩, g1, g5, g6⟩ h
                  · rfl
                · rfl
              · rfl
            · rfl
          · rfl
        · rfl
      · rfl
  unfold getGaussPred
  rw [key, error_bind]

/-! ### The loop -/

theorem gaussStep_ok_iff (xTrain : Features D) (yTrain : Arr) (xTest : Features D) (nTest : Nat) (minStd : Flt ℝ)
    (s : Cols (Str × Str) ℝ) (m : Str × Regr.Estimator D) (out : Cols (Str × Str) ℝ) :
    Regr.predStep nTest minStd (Regr.trainPredict xTrain yTrain xTest) s m = .ok out ↔
      ∃ r : Arr × Arr, (PredictsGauss xTrain yTrain xTest m.2 r.1 r.2 ∧ r.1.shape = [nTest] ∧ r.2.shape = [nTest] ∧
        r.1.data.length = nTest ∧ r.2.data.length = nTest) ∧
        out = puts s [((m.1, muName), r.1.data), ((m.1, stdName), r.2.data.map fun v => max minStd v)] := by
  unfold Regr.predStep
  rw [bind_ok_iff]
  refine exists_congr fun r => ?_
  rw [show r = (r.1, r.2) from rfl, C88_method]
  unfold storePred
  simp only [bind_ok_iff, exists_unit, pyAssert_eq_ok, Bool.and_eq_true, decide_eq_true_eq, setCol_ok_iff,
    List.length_map]
  constructor
  · rintro ⟨h1, ⟨h2, h3⟩, c, ⟨h4, rfl⟩, h5, rfl⟩
    exact ⟨⟨h1, h2, h3, h4, h5⟩, rfl⟩
  · rintro ⟨⟨h1, h2, h3, h4, h5⟩, rfl⟩
    exact ⟨h1, ⟨h2, h3⟩, _, ⟨h4, rfl⟩, h5, rfl⟩

theorem getGaussPred_ok_iff (xTrain : Features D) (yTrain : Arr) (xTest : Features D)
    (methods : List (Str × Regr.Estimator D)) (minStd : Flt ℝ) (t : GaussTable) :
    getGaussPred xTrain yTrain xTest methods minStd = .ok t ↔
      ∃ nTest, GoodRegr xTrain yTrain xTest minStd nTest ∧
      ∃ rs : List (Arr × Arr), List.Forall₂ (fun m r => PredictsGauss xTrain yTrain xTest m.2 r.1 r.2 ∧
          r.1.shape = [nTest] ∧ r.2.shape = [nTest] ∧ r.1.data.length = nTest ∧ r.2.data.length = nTest) methods rs ∧
        t = ⟨sortLevel (methods.map fun m => m.1), sortLevel [muName, stdName], nTest,
          puts (emptyCols nTest (product (methods.map fun m => m.1) [muName, stdName]))
            (List.zipWith (fun (m : Str × Regr.Estimator D) (r : Arr × Arr) =>
              [((m.1, muName), r.1.data), ((m.1, stdName), r.2.data.map fun v => max minStd v)]) methods rs).flatten⟩ := by
  unfold getGaussPred
  rw [bind_ok_iff]
  refine exists_congr fun nTest => ?_
  rw [C88_checks]
  refine and_congr_right fun _ => ?_
  rw [bind_ok_iff]
  simp only [foldlM_puts _ _ _ (gaussStep_ok_iff xTrain yTrain xTest nTest minStd), pure_eq_ok, Except.ok.injEq]
  constructor
  · rintro ⟨cols, ⟨bs, h1, rfl⟩, rfl⟩; exact ⟨bs, h1, rfl⟩
  · rintro ⟨bs, h1, rfl⟩; exact ⟨_, ⟨bs, h1, rfl⟩, rfl⟩

theorem gauss_keys (minStd : Flt ℝ) {methods : List (Str × Regr.Estimator D)} {rs : List (Arr × Arr)}
    (h : methods.length = rs.length) :
    ((List.zipWith (fun (m : Str × Regr.Estimator D) (r : Arr × Arr) =>
      [((m.1, muName), r.1.data), ((m.1, stdName), r.2.data.map fun v => max minStd v)]) methods rs).flatten).map (·.1) =
      product (methods.map fun m => m.1) [muName, stdName] := by
  induction methods generalizing rs with
  | nil => rfl
  | cons m methods ih =>
    cases rs with
    | nil => simp at h
    | cons r rs =>
      rw [List.zipWith_cons_cons, List.flatten_cons, List.map_append, ih (by simpa using h)]
      rfl

theorem moments_nodup : ([muName, stdName] : List Str).Nodup := by decide

/-- **C88, table.**  The table has a row for each test point and the two columns `mu` and `std` for each method, and no
other columns.  The means of a method are what the method predicts.  Its standard deviations are at least
`min_std`, are what the method predicts where that is at least `min_std`, and are `min_std` otherwise; a predicted
NaN stays NaN. -/
theorem C88_table {xTrain : Features D} {yTrain : Arr} {xTest : Features D} {methods : List (Str × Regr.Estimator D)}
    {minStd : Flt ℝ} {t : GaussTable} (hn : (methods.map fun m => m.1).Nodup)
    (h : getGaussPred xTrain yTrain xTest methods minStd = .ok t) :
    GoodRegr xTrain yTrain xTest minStd t.nrows ∧
    t.moments = ["mu".toList, "std".toList] ∧
    t.methods.Perm (methods.map fun m => m.1) ∧ t.methods.Pairwise (· ≤ ·) ∧
    (t.cols.map (·.1)).Nodup ∧ (∀ c ∈ t.cols, c.1.1 ∈ t.methods ∧ c.1.2 ∈ t.moments ∧ c.2.length = t.nrows) ∧
    ∀ m ∈ methods, ∃ mu std sd, PredictsGauss xTrain yTrain xTest m.2 mu std ∧
      mu.shape = [t.nrows] ∧ std.shape = [t.nrows] ∧ HasCol t.cols (m.1, "mu".toList) mu.data ∧
      HasCol t.cols (m.1, "std".toList) sd ∧
      List.Forall₂ (fun own s => minStd ≤ s ∧ (minStd ≤ own → s = own) ∧ (own < minStd → s = minStd)) std.data sd := by
  obtain ⟨nTest, hg, rs, hr, rfl⟩ := (getGaussPred_ok_iff _ _ _ _ _ _).1 h
  have hperm := sortLevel_perm (methods.map fun m => m.1)
  have hmom : sortLevel [muName, stdName] = ["mu".toList, "std".toList] := by decide
  have hkeys : (puts (emptyCols (K := ℝ) nTest (product (methods.map fun m => m.1) [muName, stdName]))
      (List.zipWith (fun (m : Str × Regr.Estimator D) (r : Arr × Arr) =>
        [((m.1, muName), r.1.data), ((m.1, stdName), r.2.data.map fun v => max minStd v)]) methods rs).flatten).map (·.1) =
      product (methods.map fun m => m.1) [muName, stdName] := by
    rw [puts_keys, emptyCols_keys]
  have hnod := product_nodup hn moments_nodup
  have hcol : ∀ m ∈ methods, ∃ r : Arr × Arr, (PredictsGauss xTrain yTrain xTest m.2 r.1 r.2 ∧
      r.1.shape = [nTest] ∧ r.2.shape = [nTest] ∧ r.1.data.length = nTest ∧ r.2.data.length = nTest) ∧
      HasCol (puts (emptyCols (K := ℝ) nTest (product (methods.map fun m => m.1) [muName, stdName]))
      (List.zipWith (fun (m : Str × Regr.Estimator D) (r : Arr × Arr) =>
        [((m.1, muName), r.1.data), ((m.1, stdName), r.2.data.map fun v => max minStd v)]) methods rs).flatten)
        (m.1, muName) r.1.data ∧
      HasCol (puts (emptyCols (K := ℝ) nTest (product (methods.map fun m => m.1) [muName, stdName]))
      (List.zipWith (fun (m : Str × Regr.Estimator D) (r : Arr × Arr) =>
        [((m.1, muName), r.1.data), ((m.1, stdName), r.2.data.map fun v => max minStd v)]) methods rs).flatten)
        (m.1, stdName) (r.2.data.map fun v => max minStd v) := by
    intro m hm
    obtain ⟨r, hz, hR⟩ := forall₂_mem hr hm
    refine ⟨r, hR, ?_, ?_⟩
    all_goals
      apply hasCol_of_mem (by rw [hkeys]; exact hnod)
      apply mem_puts
      · rw [gauss_keys _ hr.length_eq]; exact hnod
      · rw [List.mem_flatten]
        exact ⟨_, mem_zipWith_of hz, by simp⟩
      · rw [emptyCols_keys, product_mem]
        exact ⟨List.mem_map_of_mem hm, by simp⟩
  refine ⟨hg, hmom, hperm, sortLevel_sorted _, by rw [hkeys]; exact hnod, ?_, ?_⟩
  · intro c hc
    have hk : c.1 ∈ product (methods.map fun m => m.1) [muName, stdName] := by
      rw [← hkeys]; exact List.mem_map_of_mem hc
    rw [product_mem] at hk
    refine ⟨hperm.mem_iff.2 hk.1, by rw [hmom]; exact hk.2, ?_⟩
    obtain ⟨m, hm, e⟩ := List.mem_map.1 hk.1
    obtain ⟨r, ⟨-, -, -, l1, l2⟩, c1, c2⟩ := hcol m hm
    have hc' : HasCol _ c.1 c.2 := hasCol_of_mem (by rw [hkeys]; exact hnod) hc
    have hk2 := hk.2
    simp only [List.mem_cons, List.not_mem_nil, or_false] at hk2
    rcases hk2 with h2 | h2
    · rw [show c.1 = (m.1, muName) from Prod.ext e.symm h2] at hc'
      rw [hasCol_unique hc' c1, l1]
    · rw [show c.1 = (m.1, stdName) from Prod.ext e.symm h2] at hc'
      rw [hasCol_unique hc' c2, List.length_map, l2]
  · intro m hm
    obtain ⟨r, ⟨h1, h2, h3, -, -⟩, c1, c2⟩ := hcol m hm
    refine ⟨r.1, r.2, _, h1, h2, h3, c1, c2, ?_⟩
    rw [List.forall₂_map_right_iff]
    exact List.forall₂_same.2 fun v _ => ⟨le_max_left _ _, max_eq_right, fun h => max_eq_left h.le⟩

/-- **C88, no mixing.**  What other methods there are makes no difference to the columns of a method. -/
theorem C88_local {xTrain : Features D} {yTrain : Arr} {xTest : Features D} {methods methods' : List (Str × Regr.Estimator D)}
    {minStd : Flt ℝ} {t t' : GaussTable} (hn : (methods.map fun m => m.1).Nodup) (hn' : (methods'.map fun m => m.1).Nodup)
    (h : getGaussPred xTrain yTrain xTest methods minStd = .ok t)
    (h' : getGaussPred xTrain yTrain xTest methods' minStd = .ok t') {m : Str × Regr.Estimator D} (hm : m ∈ methods)
    (hm' : m ∈ methods') : t.nrows = t'.nrows ∧ ∃ mu std, HasCol t.cols (m.1, "mu".toList) mu ∧
      HasCol t'.cols (m.1, "mu".toList) mu ∧ HasCol t.cols (m.1, "std".toList) std ∧
      HasCol t'.cols (m.1, "std".toList) std := by
  obtain ⟨g1, -, -, -, -, -, hcol⟩ := C88_table hn h
  obtain ⟨g1', -, -, -, -, -, hcol'⟩ := C88_table hn' h'
  obtain ⟨mu, std, sd, p, -, -, c1, c2, f⟩ := hcol m hm
  obtain ⟨mu', std', sd', p', -, -, c1', c2', f'⟩ := hcol' m hm'
  have e := (C88_method ..).2 p
  rw [(C88_method ..).2 p', Except.ok.injEq, Prod.mk.injEq] at e
  obtain ⟨rfl, rfl⟩ := e
  have : sd = sd' := by
    apply List.ext_getElem (by rw [← f.length_eq, ← f'.length_eq])
    intro i h1 h2
    have h0 : i < std'.data.length := f.length_eq ▸ h1
    obtain ⟨-, a2, a3⟩ := (List.forall₂_iff_get.1 f).2 i h0 h1
    obtain ⟨-, b2, b3⟩ := (List.forall₂_iff_get.1 f').2 i h0 h2
    rcases le_or_gt minStd (std'.data.get ⟨i, h0⟩) with hle | hlt
    · exact (a2 hle).trans (b2 hle).symm
    · exact (a3 hlt).trans (b3 hlt).symm
  subst this
  obtain ⟨_, _, -, -, e1⟩ := g1.shapes
  obtain ⟨_, _, -, -, e2⟩ := g1'.shapes
  rw [e1] at e2
  exact ⟨by simpa using (List.cons.inj e2).1, _, _, c1, c1', c2, c2'⟩

/-- **C88, success.**  For suitable data `get_gauss_pred` succeeds if every method predicts vectors with an entry for
each test point. -/
theorem C88_success {xTrain : Features D} {yTrain : Arr} {xTest : Features D} {methods : List (Str × Regr.Estimator D)}
    {minStd : Flt ℝ} {nTest : Nat} (hg : GoodRegr xTrain yTrain xTest minStd nTest)
    (hm : ∀ m ∈ methods, ∃ mu std, PredictsGauss xTrain yTrain xTest m.2 mu std ∧ mu.shape = [nTest] ∧
      std.shape = [nTest] ∧ mu.Ok ∧ std.Ok) :
    ∃ t, getGaussPred xTrain yTrain xTest methods minStd = .ok t := by
  have : ∃ rs : List (Arr × Arr), List.Forall₂ (fun (m : Str × Regr.Estimator D) r =>
      PredictsGauss xTrain yTrain xTest m.2 r.1 r.2 ∧ r.1.shape = [nTest] ∧ r.2.shape = [nTest] ∧
      r.1.data.length = nTest ∧ r.2.data.length = nTest) methods rs := by
    clear hg
    revert hm
    induction methods with
    | nil => intro _; exact ⟨[], .nil⟩
    | cons m methods ih =>
      intro hm
      obtain ⟨rs, hrs⟩ := ih fun m hm' => hm m (by simp [hm'])
      obtain ⟨mu, std, h1, h2, h3, h4, h5⟩ := hm m (by simp)
      unfold Arr.Ok at h4 h5
      rw [h2] at h4
      rw [h3] at h5
      exact ⟨(mu, std) :: rs, .cons ⟨h1, h2, h3, by simpa using h4, by simpa using h5⟩ hrs⟩
  obtain ⟨rs, hrs⟩ := this
  exact ⟨_, (getGaussPred_ok_iff _ _ _ _ _ _).2 ⟨nTest, hg, rs, hrs, rfl⟩⟩

/-- **C88, failing method.**  The exception of the first method that fails is passed on; wrong shapes of its
predictions raise an AssertionError. -/
theorem C88_error {xTrain : Features D} {yTrain : Arr} {xTest : Features D} {methods before after : List (Str × Regr.Estimator D)}
    {minStd : Flt ℝ} {nTest : Nat} (hg : GoodRegr xTrain yTrain xTest minStd nTest) {m : Str × Regr.Estimator D}
    (hm : methods = before ++ m :: after)
    (hb : ∀ b ∈ before, ∃ mu std, PredictsGauss xTrain yTrain xTest b.2 mu std ∧ mu.shape = [nTest] ∧
      std.shape = [nTest] ∧ mu.Ok ∧ std.Ok) :
    (∀ err, Regr.trainPredict xTrain yTrain xTest m.2 = .error err →
      getGaussPred xTrain yTrain xTest methods minStd = .error err) ∧
    (∀ mu std, PredictsGauss xTrain yTrain xTest m.2 mu std → ¬ (mu.shape = [nTest] ∧ std.shape = [nTest]) →
      getGaussPred xTrain yTrain xTest methods minStd = .error .assertion) := by
  have hb' : ∀ b ∈ before, ∀ s, ∃ s', Regr.predStep nTest minStd (Regr.trainPredict xTrain yTrain xTest) s b = .ok s' := by
    intro b hb' s
    obtain ⟨mu, std, h1, h2, h3, h4, h5⟩ := hb b hb'
    unfold Arr.Ok at h4 h5
    rw [h2] at h4
    rw [h3] at h5
    exact ⟨_, (gaussStep_ok_iff xTrain yTrain xTest nTest minStd s b _).2
      ⟨(mu, std), ⟨h1, h2, h3, by simpa using h4, by simpa using h5⟩, rfl⟩⟩
  have key : ∀ err, (∀ s, Regr.predStep nTest minStd (Regr.trainPredict xTrain yTrain xTest) s m = .error err) →
      getGaussPred xTrain yTrain xTest methods minStd = .error err := by
    intro err he
    unfold getGaussPred
    rw [(C88_checks ..).2 hg, ok_bind]
    simp only []
    rw [hm, foldlM_error _ _ _ _ _ err hb' he, error_bind]
  constructor
  · intro err he
    refine key err fun s => ?_
    unfold Regr.predStep
    rw [he, error_bind]
  · intro mu std hp hs
    refine key _ fun s => ?_
    unfold Regr.predStep
    rw [(C88_method ..).2 hp, ok_bind]
    unfold storePred
    rw [pyAssert_bind, if_neg]
    simpa using hs

/-! ### The remedy for constant targets -/

/-- **C88, JustNoise with a positive floor.**  With a finite `min_std > 0` the table that contains `JustNoise` trained on any numbers
has positive standard deviations for it, so that the losses accept them; compare `C87_degenerate`. -/
theorem C88_noise {xTrain : Features D} {xTest : Features D} {xs : List ℝ} (h2 : 2 ≤ xs.length)
    {methods : List (Str × Regr.Estimator D)} {minStd : ℝ} (hpos : 0 < minStd) {t : GaussTable}
    (hn : (methods.map fun m => m.1).Nodup) {name : Str} (hm : (name, Regr.justNoise) ∈ methods)
    (h : getGaussPred xTrain (realArr xs) xTest methods (.fin minStd) = .ok t) :
    HasCol t.cols (name, "mu".toList) (List.replicate t.nrows (.fin (avg xs))) ∧
    HasCol t.cols (name, "std".toList) (List.replicate t.nrows (.fin (max minStd (Real.sqrt (popVar xs))))) ∧
    ∀ ys : List ℝ, ys.length = t.nrows → ∀ mu std, HasCol t.cols (name, "mu".toList) mu →
      HasCol t.cols (name, "std".toList) std → RegrInput (realArr ys) ⟨[t.nrows], mu⟩ ⟨[t.nrows], std⟩ t.nrows := by
  obtain ⟨g, -, -, -, -, -, hcol⟩ := C88_table hn h
  obtain ⟨mu, std, sd, p, -, -, c1, c2, f⟩ := hcol _ hm
  obtain ⟨_, d, -, -, e1⟩ := g.shapes
  have e := (C88_method ..).2 p
  rw [C87_predict xTrain xTest h2 e1, Except.ok.injEq, Prod.mk.injEq] at e
  obtain ⟨rfl, rfl⟩ := e
  have hsd : sd = List.replicate t.nrows (.fin (max minStd (Real.sqrt (popVar xs)))) := by
    rw [List.eq_replicate_iff]
    constructor
    · rw [← f.length_eq]; simp [constArr]
    · intro v hv
      obtain ⟨i, hi, rfl⟩ := List.getElem_of_mem hv
      have h0 : i < (constArr t.nrows (Real.sqrt (popVar xs))).data.length := f.length_eq ▸ hi
      obtain ⟨-, a2, a3⟩ := (List.forall₂_iff_get.1 f).2 i h0 hi
      have ev : (constArr t.nrows (Real.sqrt (popVar xs))).data.get ⟨i, h0⟩ = .fin (Real.sqrt (popVar xs)) := by
        simp [constArr]
      rw [ev] at a2 a3
      change sd.get ⟨i, hi⟩ = _
      rcases le_or_gt minStd (Real.sqrt (popVar xs)) with hle | hlt
      · rw [a2 (Flt.fin_le_fin.2 hle), max_eq_right hle]
      · rw [a3 (Flt.fin_lt_fin.2 hlt), max_eq_left hlt.le]
  subst hsd
  refine ⟨c1, c2, fun ys hys mu std g1 g2 => ?_⟩
  rw [hasCol_unique g1 c1, hasCol_unique g2 c2]
  refine ⟨g.pos, ⟨by simp [realArr, hys], rfl, rfl⟩, ?_, ?_⟩
  · rintro v (hv | hv | hv)
    · obtain ⟨x, -, rfl⟩ := List.mem_map.1 hv; exact ⟨x, rfl⟩
    · exact ⟨_, List.eq_of_mem_replicate hv⟩
    · exact ⟨_, List.eq_of_mem_replicate hv⟩
  · intro v hv
    rw [List.eq_of_mem_replicate hv, Flt.fin_lt_fin]
    exact lt_max_of_lt_left hpos

/-! ### Examples -/

/-- A method without `return_std` that predicts 5 for each of two test points. -/
noncomputable def meanOnly : Regr.Estimator Unit := fun _ _ =>
  .ok ⟨fun _ => .error .typeError, fun _ => .ok (.vec [.fin 5, .fin 5])⟩

noncomputable def regrTrain : Features Unit := ⟨[3, 1], 'f', ()⟩
noncomputable def regrTest : Features Unit := ⟨[2, 1], 'f', ()⟩

theorem regrGood (m : ℝ) (hm : 0 ≤ m) : GoodRegr regrTrain (realArr [4, 4, 4]) regrTest (.fin m) 2 :=
  ⟨⟨3, 1, rfl, rfl, rfl⟩, by norm_num, rfl, by simp, Flt.fin_le_fin.2 hm⟩

theorem regrExample_ok : ∃ t, getGaussPred regrTrain (realArr [4, 4, 4]) regrTest
    [("noise".toList, Regr.justNoise), ("mean".toList, meanOnly)] (.fin (1 / 2)) = .ok t := by
  refine C88_success (regrGood _ (by norm_num)) ?_
  intro m hm
  simp only [List.mem_cons, List.not_mem_nil, or_false] at hm
  rcases hm with rfl | rfl
  · exact ⟨_, _, (C88_method ..).1 (C87_predict _ _ (by simp) (n := 2) rfl), rfl, rfl, by simp [Arr.Ok, constArr],
      by simp [Arr.Ok, constArr]⟩
  · exact ⟨.vec [.fin 5, .fin 5], .vec [.fin 1, .fin 1], ⟨_, rfl, Or.inr ⟨rfl, rfl, rfl, rfl, by simp [Arr.vec]⟩⟩, rfl, rfl,
      rfl, rfl⟩

/-- Constant targets: the standard deviation of `JustNoise` is the floor. -/
example : ∃ t, getGaussPred regrTrain (realArr [4, 4, 4]) regrTest
    [("noise".toList, Regr.justNoise), ("mean".toList, meanOnly)] (.fin (1 / 2)) = .ok t ∧
    HasCol t.cols ("noise".toList, "std".toList) [.fin (1 / 2), .fin (1 / 2)] := by
  obtain ⟨t, ht⟩ := regrExample_ok
  refine ⟨t, ht, ?_⟩
  have hn : (([("noise".toList, Regr.justNoise), ("mean".toList, meanOnly)] :
      List (Str × Regr.Estimator Unit)).map fun m => m.1).Nodup := by
    simp only [List.map_cons, List.map_nil]; decide
  obtain ⟨-, h, -⟩ := C88_noise (name := "noise".toList) (by simp) (by norm_num) hn (by simp) ht
  obtain ⟨_, _, -, -, e⟩ := (C88_table hn ht).1.shapes
  have e' : t.nrows = 2 := by
    have : regrTest.shape = [2, 1] := rfl
    rw [this] at e
    simpa using (List.cons.inj e).1.symm
  have hz : popVar [4, 4, 4] = 0 := (popVar_eq_zero (by simp)).2 ⟨4, by simp⟩
  rw [e', hz, Real.sqrt_zero, max_eq_left (by norm_num)] at h
  exact h

/-- A negative floor. -/
example : getGaussPred regrTrain (realArr [4, 4, 4]) regrTest [] (.fin (-1)) = .error .assertion :=
  C88_reject (by simp [regrTest]) (by
    rintro ⟨n, h⟩
    exact absurd (Flt.fin_le_fin.1 h.floor.2) (by norm_num)) _

/-- `JustNoise` needs two targets. -/
example : getGaussPred ⟨[1, 1], 'f', ()⟩ (realArr [4]) regrTest [("noise".toList, Regr.justNoise)] (.fin 0) =
    .error .assertion := by
  have h : Regr.justNoiseFit (realArr [4]) = .error .assertion := by
    unfold Regr.justNoiseFit
    rw [pyAssert_bind, if_pos (by simp [realArr]), pyAssert_bind, if_neg (by simp [realArr])]
  have hg : GoodRegr (⟨[1, 1], 'f', ()⟩ : Features Unit) (realArr [4]) regrTest (.fin 0) 2 :=
    ⟨⟨1, 1, rfl, rfl, rfl⟩, by norm_num, rfl, by simp, le_refl _⟩
  refine (C88_error hg (before := [])
    (after := []) (m := ("noise".toList, Regr.justNoise)) rfl (by simp)).1 _ ((C88_method_error ..).2 (Or.inl ?_))
  unfold Regr.justNoise
  simp only [h, error_bind]

end Mlp.Props
