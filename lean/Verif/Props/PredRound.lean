import Verif.Props.LossTableRound
import Verif.Props.ClassPred

/-! # Property C121: `get_pred_log_prob` in floating point arithmetic -/

namespace Mlp.Props
open Mlp.Util Mlp.Frame Mlp.PerfR Mlp.PaperR Mlp.CurveR Mlp.LossR Mlp.Spec Mlp.Lemmas Mlp.Round Mlp.Classif

variable {L : Lib ℝ} {D : Type}

/-- The table that the loop of `get_pred_log_prob` fills. -/
def blockTable {α : Type} (methods : List (Str × α)) (qs : List (Mat ℝ)) (nTest nLabels : Nat) : PredTable ℝ :=
  ⟨sortLevel (methods.map fun m => m.1), rangeList nLabels, nTest,
    (methods.zip qs).foldl (fun s ab => setBlock s ab.1.1 ab.2)
      (emptyCols nTest (product (methods.map fun m => m.1) (rangeList nLabels)))⟩

/-- Whatever matrices of the right shape are stored, the table has them as the matrices of the methods. -/
theorem blockTable_spec {α : Type} {methods : List (Str × α)} {qs : List (Mat ℝ)} {nTest nLabels : Nat}
    (hn : (methods.map fun m => m.1).Nodup)
    (hq : List.Forall₂ (fun (_ : Str × α) q => q.rows.length = nTest ∧ q.ncols = nLabels ∧ Rect q) methods qs) :
    ((blockTable methods qs nTest nLabels).cols.map (·.1)).Nodup ∧
    (∀ c ∈ (blockTable methods qs nTest nLabels).cols, c.1.1 ∈ (blockTable methods qs nTest nLabels).methods ∧
      c.1.2 ∈ (blockTable methods qs nTest nLabels).labels ∧ c.2.length = nTest) ∧
    ∀ m q, (m, q) ∈ methods.zip qs → InOrder (blockTable methods qs nTest nLabels) m.1 ∧
      IsMatrix (blockTable methods qs nTest nLabels) m.1 q := by
  have hkeys : (blockTable methods qs nTest nLabels).cols.map (·.1) =
      product (methods.map fun m => m.1) (rangeList nLabels) := by
    unfold blockTable
    simp only
    rw [blocks_keys (name := fun a : Str × α => a.1), emptyCols_keys]
  have hperm := sortLevel_perm (methods.map fun m => m.1)
  have hnod := product_nodup hn (labels_nodup nLabels)
  have hzip : ((methods.zip qs).map fun ab => ab.1.1) = methods.map fun m => m.1 := by
    have : ((methods.zip qs).map fun ab => ab.1.1) = ((methods.zip qs).map Prod.fst).map fun m => m.1 := by
      rw [List.map_map]; rfl
    rw [this, List.map_fst_zip hq.length_eq.le]
  have hshape : ∀ m q, (m, q) ∈ methods.zip qs → q.rows.length = nTest ∧ q.ncols = nLabels ∧ Rect q := by
    intro m q h
    obtain ⟨i, hi, e⟩ := List.getElem_of_mem h
    rw [List.getElem_zip, Prod.mk.injEq] at e
    rw [List.length_zip] at hi
    have := (List.forall₂_iff_get.1 hq).2 i (by omega) (by omega)
    rw [← e.2]
    exact this
  have hblock : ∀ m ∈ methods, ∃ q, (m, q) ∈ methods.zip qs := by
    intro m hm
    obtain ⟨i, hi, rfl⟩ := List.getElem_of_mem hm
    have hi' : i < qs.length := hq.length_eq ▸ hi
    exact ⟨qs[i], List.mem_iff_getElem.2 ⟨i, by simp [hi, hi'], by simp⟩⟩
  refine ⟨by rw [hkeys]; exact hnod, ?_, ?_⟩
  · intro c hc
    have hk : c.1 ∈ product (methods.map fun m => m.1) (rangeList nLabels) := by
      rw [← hkeys]; exact List.mem_map_of_mem hc
    rw [product_mem] at hk
    refine ⟨hperm.mem_iff.2 hk.1, hk.2, ?_⟩
    obtain ⟨m, hm, e⟩ := List.mem_map.1 hk.1
    obtain ⟨q, h1⟩ := hblock m hm
    rw [blocks_col _ (fun a : Str × α => a.1) (by rw [hzip]; exact hn) _ h1 hc e.symm]
    simp [colAt, (hshape m q h1).1]
  · intro m q h1
    have hm := (List.of_mem_zip h1).1
    obtain ⟨s1, s2, s3⟩ := hshape m q h1
    refine ⟨inOrder_product hkeys (by simp [rangeList, blockTable]) hn (List.mem_map_of_mem hm), by simp [blockTable, s2, rangeList], s1, s3, ?_⟩
    intro k hk
    have hk' : k < nLabels := by simpa [rangeList, blockTable] using hk
    have : (m.1, (k : Int)) ∈ (blockTable methods qs nTest nLabels).cols.map (·.1) := by
      rw [hkeys, product_mem]
      exact ⟨List.mem_map_of_mem hm, List.mem_map.2 ⟨k, List.mem_range.2 hk', rfl⟩⟩
    obtain ⟨c, hc1, hc2⟩ := List.mem_map.1 this
    have hcol := blocks_col _ (fun a : Str × α => a.1) (by rw [hzip]; exact hn) _ h1 hc1 (by rw [hc2])
    refine ⟨c.2, hasCol_of_mem (by rw [hkeys]; exact hnod) (by rw [← hc2]; exact hc1), ?_⟩
    intro i r hr
    rw [hcol, hc2]
    have hi := (List.getElem?_eq_some_iff.1 hr).1
    have hr2 := (List.getElem?_eq_some_iff.1 hr).2
    unfold colAt
    rw [getD_eq _ _ (by simpa using hi), List.getElem_map, hr2]
    have hrl : r.length = nLabels := by rw [s3 r (List.mem_of_getElem? hr), s2]
    simp [hrl, hk']

/-! ## What is predicted -/

/-- What the estimator predicts: its log-probabilities, or the computed logarithms of its probabilities if it cannot give
log-probabilities. -/
def PredictsR (L : Lib ℝ) (xTrain : Features D) (yTrain : LabelVec) (xTest : Features D) (e : Estimator D) (p : Mat ℝ) : Prop :=
  ∃ f, e xTrain yTrain = .ok f ∧
    (f.predictLogProba xTest = .ok p ∨
      (∀ m, f.predictLogProba xTest ≠ .ok m) ∧ ∃ q, f.predictProba xTest = .ok q ∧ p.ncols = q.ncols ∧
        p.rows = q.rows.map fun r => r.map (flogR L))

theorem trainPredictR_ok_iff (xTrain : Features D) (yTrain : LabelVec) (xTest : Features D) (e : Estimator D) (p : Mat ℝ) :
    trainPredictR L xTrain yTrain xTest e = .ok p ↔ PredictsR L xTrain yTrain xTest e p := by
  unfold trainPredictR PredictsR
  rw [bind_ok_iff]
  refine exists_congr fun f => and_congr_right fun _ => ?_
  unfold predictOfR
  cases h : f.predictLogProba xTest with
  | ok m => simp
  | error e =>
    simp only [reduceCtorEq, false_or, ne_eq, not_false_eq_true, implies_true, true_and]
    cases h' : f.predictProba xTest with
    | error e => simp
    | ok q =>
      simp only [Except.ok.injEq, exists_eq_left']
      constructor
      · rintro rfl; exact ⟨rfl, rfl⟩
      · rintro ⟨h1, h2⟩
        cases p; simp_all

/-- The prediction of an estimator is determined by the data. -/
theorem predictsR_unique {xTrain : Features D} {yTrain : LabelVec} {xTest : Features D} {e : Estimator D} {p p' : Mat ℝ}
    (h : PredictsR L xTrain yTrain xTest e p) (h' : PredictsR L xTrain yTrain xTest e p') : p = p' := by
  have := (trainPredictR_ok_iff ..).2 h
  rw [(trainPredictR_ok_iff ..).2 h', Except.ok.injEq] at this
  exact this.symm

/-- The rows with entries below the floor replaced by the floor, rounded normalised. -/
def FlooredR (L : Lib ℝ) (xTrain : Features D) (yTrain : LabelVec) (xTest : Features D) (nTest nLabels : Nat) (floor : Flt ℝ)
    (e : Estimator D) (q : Mat ℝ) : Prop :=
  ∃ p, PredictsR L xTrain yTrain xTest e p ∧ p.rows.length = nTest ∧ p.ncols = nLabels ∧
    normalizeRowsR L (floorMat floor p) = .ok q

theorem predStepR_ok_iff (xTrain : Features D) (yTrain : LabelVec) (xTest : Features D) (nTest nLabels : Nat)
    (floor : Flt ℝ) (s : Cols (Str × Int) ℝ) (m : Str × Estimator D) (out : Cols (Str × Int) ℝ) :
    predStepR L nTest nLabels floor (trainPredictR L xTrain yTrain xTest) s m = .ok out ↔
      ∃ q, FlooredR L xTrain yTrain xTest nTest nLabels floor m.2 q ∧ out = setBlock s m.1 q := by
  unfold predStepR storeProbR FlooredR
  simp only [bind_ok_iff, exists_unit, pyAssert_eq_ok, Bool.and_eq_true, decide_eq_true_eq, pure_eq_ok,
    Except.ok.injEq, trainPredictR_ok_iff]
  constructor
  · rintro ⟨p, h1, ⟨h2, h3⟩, q, h4, rfl⟩; exact ⟨q, ⟨p, h1, h2, h3, h4⟩, rfl⟩
  · rintro ⟨q, ⟨p, h1, h2, h3, h4⟩, rfl⟩; exact ⟨p, h1, ⟨h2, h3⟩, q, h4, rfl⟩

theorem getPredLogProbR_ok_iff (xTrain : Features D) (yTrain : LabelVec) (xTest : Features D) (nLabels : Nat)
    (methods : List (Str × Estimator D)) (floor : Flt ℝ) (t : PredTable ℝ) :
    getPredLogProbR L xTrain yTrain xTest nLabels methods floor = .ok t ↔
      ∃ nTest, GoodData xTrain yTrain xTest nLabels floor nTest ∧
      ∃ qs, List.Forall₂ (fun m q => FlooredR L xTrain yTrain xTest nTest nLabels floor m.2 q) methods qs ∧
        t = blockTable methods qs nTest nLabels := by
  unfold getPredLogProbR
  rw [bind_ok_iff]
  refine exists_congr fun nTest => ?_
  rw [C81_checks]
  refine and_congr_right fun _ => ?_
  rw [bind_ok_iff]
  simp only [foldlM_pure _ _ (fun s (a : Str × Estimator D) q => setBlock s a.1 q)
    (predStepR_ok_iff xTrain yTrain xTest nTest nLabels floor), pure_eq_ok, Except.ok.injEq]
  constructor
  · rintro ⟨cols, ⟨bs, h1, rfl⟩, rfl⟩; exact ⟨bs, h1, rfl⟩
  · rintro ⟨bs, h1, rfl⟩; exact ⟨_, ⟨bs, h1, rfl⟩, rfl⟩

/-- What a method must predict: a matrix of the right shape with floats or `-inf` in it, and at least one number in every row unless there
is a floor. -/
structure GoodPrediction (rnd : ℝ → ℝ) (floor : Flt ℝ) (nTest nLabels : Nat) (p : Mat ℝ) : Prop where
  rows : p.rows.length = nTest
  cols : p.ncols = nLabels
  rect : Rect p
  logs : ∀ r ∈ p.rows, LogProbs r ∧ FloatRow rnd r
  some : floor = .ninf → ∀ r ∈ p.rows, Proper r

theorem floored_row {rnd : ℝ → ℝ} {floor : Flt ℝ} (hn : floor < .fin 0) (hfl : ∀ x : ℝ, floor = .fin x → rnd x = x) {r : List (Flt ℝ)}
    (hr : LogProbs r) (hrf : FloatRow rnd r) (hne : r ≠ []) (hp : floor = .ninf → Proper r) :
    Proper (r.map fun v => Flt.maximum floor v) ∧ FloatRow rnd (r.map fun v => Flt.maximum floor v) := by
  have hfloor : floor ≠ .nan ∧ floor ≠ .pinf := by
    constructor
    · rintro rfl; exact absurd hn (not_lt.2 (Flt.le_nan _))
    · rintro rfl; exact absurd hn (not_lt.2 (Flt.fin_le_pinf _))
  have key : ∀ v ∈ r, Flt.maximum floor v = v ∨ Flt.maximum floor v = floor := fun v _ => (max_choice floor v).symm
  refine ⟨⟨?_, ?_⟩, ?_⟩
  · intro w hw
    obtain ⟨v, hv, rfl⟩ := List.mem_map.1 hw
    rcases key v hv with e | e <;> rw [e]
    · exact hr v hv
    · exact hfloor
  · cases hc : floor with
    | nan => exact absurd hc hfloor.1
    | pinf => exact absurd hc hfloor.2
    | ninf =>
      obtain ⟨-, x, hx⟩ := hp hc
      exact ⟨x, List.mem_map.2 ⟨_, hx, max_eq_right (Flt.ninf_le _)⟩⟩
    | fin a =>
      obtain ⟨v, l, rfl⟩ := List.exists_cons_of_ne_nil hne
      rcases key v (by simp) with e | e
      · rw [hc] at e
        have h1 : Flt.fin a ≤ v := max_eq_right_iff.1 e
        cases v with
        | fin b => exact ⟨b, by rw [List.map_cons, e]; simp⟩
        | ninf => exact absurd h1 (not_le.2 (ninf_lt_fin a))
        | pinf => exact absurd rfl (hr .pinf (by simp)).2
        | nan => exact absurd rfl (hr .nan (by simp)).1
      · rw [hc] at e
        exact ⟨a, by rw [List.map_cons, e]; simp⟩
  · intro x hx
    obtain ⟨v, hv, e⟩ := List.mem_map.1 hx
    rcases key v hv with h | h
    · rw [e] at h; exact hrf x (h ▸ hv)
    · rw [e] at h; exact hfl x h.symm

/-- **C121, predictions.**  In floating point arithmetic `get_pred_log_prob` succeeds if the methods predict floats; the rows of its table are
floats or `-inf`, at most 0; with a finite floor all entries are finite. -/
theorem C121_predictions (hL : GoodLib L) (hE : GoodExpLog L) {xTrain : Features D} {yTrain : LabelVec} {xTest : Features D}
    {nLabels nTest : Nat} {methods : List (Str × Estimator D)} {floor : Flt ℝ} (hg : GoodData xTrain yTrain xTest nLabels floor nTest)
    (hfl : ∀ x : ℝ, floor = .fin x → L.rnd x = x) (hn : (methods.map fun m => m.1).Nodup) (hne : methods ≠ [])
    (hp : ∀ m ∈ methods, ∃ p, PredictsR L xTrain yTrain xTest m.2 p ∧ GoodPrediction L.rnd floor nTest nLabels p) :
    ∃ t, getPredLogProbR L xTrain yTrain xTest nLabels methods floor = .ok t ∧ t.nrows = nTest ∧ t.labels = rangeList nLabels ∧
      t.methods.Perm (methods.map fun m => m.1) ∧ t.methods.Pairwise (· ≤ ·) ∧ GoodTable t ∧ FloatPreds L.rnd t ∧
      ∀ m ∈ methods, ∃ p q, PredictsR L xTrain yTrain xTest m.2 p ∧ IsMatrix t m.1 q ∧ normalizeRowsR L (floorMat floor p) = .ok q ∧
        (∀ r ∈ q.rows, AtMostZero r) ∧ (floor ≠ .ninf → ∀ r ∈ q.rows, ∀ v ∈ r, v ≠ .ninf) := by
  have hpos : 1 ≤ nLabels := by
    obtain ⟨v, l, hv⟩ := List.exists_cons_of_ne_nil hg.nonempty
    have := hg.range v (by simp [hv])
    omega
  -- what one method contributes
  have hone : ∀ m ∈ methods, ∃ q p, PredictsR L xTrain yTrain xTest m.2 p ∧ p.rows.length = nTest ∧ p.ncols = nLabels ∧
      normalizeRowsR L (floorMat floor p) = .ok q ∧ q.rows.length = nTest ∧ q.ncols = nLabels ∧ Rect q ∧
      (∀ r ∈ q.rows, Proper r ∧ FloatRow L.rnd r ∧ AtMostZero r ∧ (floor ≠ .ninf → ∀ v ∈ r, v ≠ .ninf)) := by
    intro m hm
    obtain ⟨p, h1, h2⟩ := hp m hm
    have hrow : ∀ r ∈ (floorMat floor p).rows, Proper r ∧ FloatRow L.rnd r := by
      intro r hr
      obtain ⟨r0, hr0, rfl⟩ := List.mem_map.1 hr
      refine floored_row hg.floor hfl (h2.logs r0 hr0).1 (h2.logs r0 hr0).2 ?_ fun e => h2.some e r0 hr0
      rintro rfl
      have := h2.rect [] hr0
      rw [h2.cols] at this
      simp at this
      omega
    obtain ⟨q, e1, e2, e3⟩ := C120_normalize hL hE (p := floorMat floor p) (by rw [floorMat, h2.cols]; exact hpos)
      (fun r hr => (hrow r hr).1) fun r hr => (hrow r hr).2
    have hlen : q.rows.length = nTest := by rw [← e3.length_eq, floorMat, List.length_map, h2.rows]
    have hmem : ∀ r' ∈ q.rows, ∃ r0 ∈ p.rows, r'.length = r0.length ∧ Proper r' ∧ FloatRow L.rnd r' ∧ AtMostZero r' ∧
        ∀ i : Nat, r'[i]? = some .ninf ↔ (r0.map fun v => Flt.maximum floor v)[i]? = some .ninf := by
      intro r' hr'
      obtain ⟨i, hi, rfl⟩ := List.mem_iff_getElem.1 hr'
      have hi1 : i < (floorMat floor p).rows.length := by rw [e3.length_eq]; exact hi
      have hi2 : i < p.rows.length := by simpa [floorMat] using hi1
      have := (List.forall₂_iff_get.1 e3).2 i hi1 hi
      simp only [List.get_eq_getElem] at this
      have e : (floorMat floor p).rows[i] = p.rows[i].map fun v => Flt.maximum floor v := by simp [floorMat]
      rw [e] at this
      exact ⟨p.rows[i], List.getElem_mem hi2, by simpa using this.1, this.2.1, this.2.2.1, this.2.2.2.1, this.2.2.2.2.1⟩
    refine ⟨q, p, h1, h2.rows, h2.cols, e1, hlen, by rw [e2, floorMat, h2.cols], ?_, ?_⟩
    · intro r' hr'
      obtain ⟨r0, a, b, -⟩ := hmem r' hr'
      rw [b, e2, floorMat]
      exact h2.rect r0 a
    · intro r' hr'
      obtain ⟨r0, a, b, c1, c2, c3, c4⟩ := hmem r' hr'
      refine ⟨c1, c2, c3, ?_⟩
      rintro hfn v hv rfl
      obtain ⟨i, hi, e⟩ := List.mem_iff_getElem.1 hv
      have := (c4 i).1 (by rw [List.getElem?_eq_getElem hi, e])
      rw [List.getElem?_map, Option.map_eq_some_iff] at this
      obtain ⟨v, -, e⟩ := this
      have h3 : floor ≤ Flt.ninf := by rw [← e]; exact le_max_left _ _
      exact hfn (le_antisymm h3 (Flt.ninf_le _))
  have hall : ∀ l : List (Str × Estimator D), (∀ m ∈ l, m ∈ methods) → ∃ qs, List.Forall₂ (fun m q => ∃ p,
      PredictsR L xTrain yTrain xTest m.2 p ∧ p.rows.length = nTest ∧ p.ncols = nLabels ∧
      normalizeRowsR L (floorMat floor p) = .ok q ∧ q.rows.length = nTest ∧ q.ncols = nLabels ∧ Rect q ∧
      (∀ r ∈ q.rows, Proper r ∧ FloatRow L.rnd r ∧ AtMostZero r ∧ (floor ≠ .ninf → ∀ v ∈ r, v ≠ .ninf))) l qs := by
    intro l
    induction l with
    | nil => exact fun _ => ⟨[], .nil⟩
    | cons m l ih =>
      intro hl
      obtain ⟨qs, hqs⟩ := ih fun m hm => hl m (by simp [hm])
      obtain ⟨q, h⟩ := hone m (hl m (by simp))
      exact ⟨q :: qs, .cons h hqs⟩
  obtain ⟨qs, hqs⟩ := hall methods fun _ h => h
  obtain ⟨b1, b2, b3⟩ := blockTable_spec (nTest := nTest) (nLabels := nLabels) hn
    (hqs.imp fun m q ⟨p, _, _, _, _, h1, h2, h3, _⟩ => ⟨h1, h2, h3⟩)
  have hperm := sortLevel_perm (methods.map fun m => m.1)
  have hblock : ∀ m ∈ methods, ∃ q p, (m, q) ∈ methods.zip qs ∧ PredictsR L xTrain yTrain xTest m.2 p ∧
      normalizeRowsR L (floorMat floor p) = .ok q ∧
      (∀ r ∈ q.rows, Proper r ∧ FloatRow L.rnd r ∧ AtMostZero r ∧ (floor ≠ .ninf → ∀ v ∈ r, v ≠ .ninf)) := by
    intro m hm
    obtain ⟨i, hi, rfl⟩ := List.getElem_of_mem hm
    have hi' : i < qs.length := hqs.length_eq ▸ hi
    obtain ⟨p, h1, -, -, h2, -, -, -, h3⟩ := (List.forall₂_iff_get.1 hqs).2 i hi hi'
    exact ⟨qs[i], p, List.mem_iff_getElem.2 ⟨i, by simp [hi, hi'], by simp⟩, h1, h2, h3⟩
  have hmeth : ∀ method ∈ (blockTable methods qs nTest nLabels).methods, ∃ m ∈ methods, m.1 = method :=
    fun method h => List.mem_map.1 (hperm.mem_iff.1 h)
  refine ⟨blockTable methods qs nTest nLabels, (getPredLogProbR_ok_iff ..).2 ⟨nTest, hg, qs,
    hqs.imp fun m q ⟨p, h1, h2, h3, h4, _⟩ => ⟨p, h1, h2, h3, h4⟩, rfl⟩, rfl, rfl, hperm, sortLevel_sorted _, ?_, ?_, ?_⟩
  · refine ⟨hg.pos, by simp [blockTable, rangeList]; omega, ?_, ?_, fun c hc => (b2 c hc).2.2, ?_⟩
    · obtain ⟨m, l, e⟩ := List.exists_cons_of_ne_nil hne
      intro h
      have : m.1 ∈ (blockTable methods qs nTest nLabels).methods := hperm.mem_iff.2 (by rw [e]; simp)
      rw [h] at this
      simp at this
    · intro method hm
      obtain ⟨m, hm', rfl⟩ := hmeth method hm
      obtain ⟨q, p, h1, -⟩ := hblock m hm'
      exact (b3 m q h1).1
    · intro c hc hv
      obtain ⟨c1, c2, c3⟩ := b2 c hc
      obtain ⟨m, hm', e⟩ := hmeth _ c1
      obtain ⟨q, p, h1, -, -, h3⟩ := hblock m hm'
      have hM := (b3 m q h1).2
      obtain ⟨k, hk, hk'⟩ := List.mem_map.1 c2
      have hk2 : k < nLabels := by simpa using hk
      obtain ⟨col, y1, y2⟩ := hM.2.2.2 k (by simp [blockTable, rangeList, hk2])
      have hcol : HasCol (blockTable methods qs nTest nLabels).cols c.1 c.2 := hasCol_of_mem b1 (by simpa using hc)
      have ek : c.1 = (m.1, (k : Int)) := Prod.ext e.symm hk'.symm
      rw [ek] at hcol
      obtain rfl := hasCol_unique hcol y1
      obtain ⟨i, hi, e2⟩ := List.getElem_of_mem hv
      have hiq : i < q.rows.length := by rw [hM.2.1]; exact c3 ▸ hi
      have y3 := y2 i _ (List.getElem?_eq_getElem hiq)
      have hd' : c.2.getD i .nan = c.2[i] := by simp [hi]
      rw [hd', e2] at y3
      exact ((h3 _ (List.getElem_mem hiq)).1.1 _ (List.mem_of_getElem? y3)).1 rfl
  · intro method hm p' hp' r hr
    obtain ⟨m, hm', rfl⟩ := hmeth method hm
    obtain ⟨q, p, h1, -, -, h3⟩ := hblock m hm'
    obtain rfl := isMatrix_unique rfl rfl (fun k col => Iff.rfl) (b3 m q h1).2 hp'
    exact ⟨(h3 r hr).1, (h3 r hr).2.1⟩
  · intro m hm
    obtain ⟨q, p, h1, h2, h4, h3⟩ := hblock m hm
    exact ⟨p, q, h2, (b3 m q h1).2, h4, fun r hr => (h3 r hr).2.2.1, fun e r hr => (h3 r hr).2.2.2 e⟩

end Mlp.Props
