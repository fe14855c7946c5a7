import Verif.Props.ClassNoise

/-! # Property C81: the prediction tables of `get_pred_log_prob` -/

namespace Mlp.Props
open Mlp.Util Mlp.Spec Mlp.Classif Mlp.Lemmas Mlp.Frame

variable {D : Type}

theorem ninf_lt_fin (x : ℝ) : (.ninf : Flt ℝ) < .fin x :=
  lt_of_le_of_ne (Flt.ninf_le _) (by simp)

/-- What the estimator predicts: its log-probabilities, or the logarithms of its probabilities if it cannot give
log-probabilities. -/
def Predicts (xTrain : Features D) (yTrain : LabelVec) (xTest : Features D) (e : Estimator D) (p : Mat ℝ) : Prop :=
  ∃ f, e xTrain yTrain = .ok f ∧
    (f.predictLogProba xTest = .ok p ∨
      (∀ m, f.predictLogProba xTest ≠ .ok m) ∧ ∃ q, f.predictProba xTest = .ok q ∧ p.ncols = q.ncols ∧
        p.rows = q.rows.map fun r => r.map flog)

theorem trainPredict_ok_iff (xTrain : Features D) (yTrain : LabelVec) (xTest : Features D) (e : Estimator D) (p : Mat ℝ) :
    trainPredict xTrain yTrain xTest e = .ok p ↔ Predicts xTrain yTrain xTest e p := by
  unfold trainPredict Predicts
  rw [bind_ok_iff]
  refine exists_congr fun f => and_congr_right fun _ => ?_
  unfold predictOf
  cases h : f.predictLogProba xTest with
  | ok m => simp
  | error e =>
    simp only [reduceCtorEq, false_or, ne_eq, not_false_eq_true, implies_true, true_and]
    cases h' : f.predictProba xTest with
    | error e => simp
    | ok q =>
      simp only [Except.ok.injEq, exists_eq_left']
      unfold logMat
      constructor
      · rintro rfl; exact ⟨rfl, rfl⟩
      · rintro ⟨h1, h2⟩
        cases p; simp_all

/-- The shapes and kinds that `get_pred_log_prob` insists on. -/
structure GoodData (xTrain : Features D) (yTrain : LabelVec) (xTest : Features D) (nLabels : Nat) (floor : Flt ℝ)
    (nTest : Nat) : Prop where
  test : ∃ d rest, xTest.shape = nTest :: d :: rest ∧
    ∃ rest', xTrain.shape = yTrain.vals.length :: d :: rest' ∧ rest.length = rest'.length
  pos : 0 < nTest
  kind : yTrain.kind = 'b' ∨ yTrain.kind = 'i'
  nonempty : yTrain.vals ≠ []
  range : ∀ v ∈ yTrain.vals, 0 ≤ v ∧ v < (nLabels : Int)
  same : xTrain.kind = xTest.kind
  floor : floor < .fin 0

theorem shapeAt_ok_iff (x : Features D) (i n : Nat) : shapeAt x i = .ok n ↔ x.shape[i]? = some n := by
  unfold shapeAt
  cases x.shape[i]? <;> simp

theorem labelBounds_ok_iff (y : LabelVec) (n : Nat) :
    labelBounds y n = .ok () ↔ y.vals ≠ [] ∧ ∀ v ∈ y.vals, 0 ≤ v ∧ v < (n : Int) := by
  unfold labelBounds
  cases h : y.vals with
  | nil => simp
  | cons a l =>
    simp only [pyAssert_eq_ok, Bool.and_eq_true, List.all_eq_true, decide_eq_true_eq, ne_eq, reduceCtorEq,
      not_false_eq_true, true_and]
    exact ⟨fun ⟨h1, h2⟩ v hv => ⟨h1 v hv, h2 v hv⟩, fun h => ⟨fun v hv => (h v hv).1, fun v hv => (h v hv).2⟩⟩

/-- **C81, checks.**  The checks succeed exactly for data of the documented form. -/
theorem C81_checks (xTrain : Features D) (yTrain : LabelVec) (xTest : Features D) (nLabels : Nat) (floor : Flt ℝ)
    (nTest : Nat) :
    predChecks xTrain yTrain xTest nLabels floor = .ok nTest ↔ GoodData xTrain yTrain xTest nLabels floor nTest := by
  unfold predChecks
  simp only [bind_ok_iff, exists_unit, pyAssert_eq_ok, shapeAt_ok_iff, labelBounds_ok_iff, decide_eq_true_eq,
    Bool.or_eq_true, pure_eq_ok, Except.ok.injEq, Flt.lt_iff]
  constructor
  · rintro ⟨n, h1, h2, h3, nt, h4, h5, h6, ⟨h7, h8⟩, h9, a, h10, b, h11, rfl, h12, h13, rfl⟩
    refine ⟨?_, h2, h6, h7, h8, h12, h13.2⟩
    rcases e1 : xTest.shape with _ | ⟨x, _ | ⟨d, rest⟩⟩
    · rw [e1] at h1; simp at h1
    · rw [e1] at h10; simp at h10
    · rcases e2 : xTrain.shape with _ | ⟨x', _ | ⟨d', rest'⟩⟩
      · rw [e2] at h3; simp at h3
      · rw [e2] at h3; simp at h3
      · rw [e1] at h1 h10 h9
        rw [e2] at h4 h11 h9
        simp at h1 h10 h4 h11 h9
        subst h1 h10 h4 h11
        exact ⟨_, _, rfl, _, by rw [h5], h9⟩
  · rintro ⟨⟨d, rest, e1, rest', e2, hl⟩, h2, h3, h4, h5, h6, h7⟩
    refine ⟨nTest, by simp [e1], h2, by simp [e2], _, by rw [e2]; rfl, rfl, h3, ⟨h4, h5⟩, by simp [e1, e2, hl], d,
      by simp [e1], d, by simp [e2], rfl, h6, ?_, rfl⟩
    exact ⟨by simp, h7⟩

/-! ### The loop -/

/-- The normalised predictions of one method. -/
def Floored (xTrain : Features D) (yTrain : LabelVec) (xTest : Features D) (nTest nLabels : Nat) (floor : Flt ℝ)
    (e : Estimator D) (q : Mat ℝ) : Prop :=
  ∃ p, Predicts xTrain yTrain xTest e p ∧ p.rows.length = nTest ∧ p.ncols = nLabels ∧
    normalizeRows (floorMat floor p) = .ok q

theorem predStep_ok_iff (xTrain : Features D) (yTrain : LabelVec) (xTest : Features D) (nTest nLabels : Nat)
    (floor : Flt ℝ) (s : Cols (Str × Int) ℝ) (m : Str × Estimator D) (out : Cols (Str × Int) ℝ) :
    predStep nTest nLabels floor (trainPredict xTrain yTrain xTest) s m = .ok out ↔
      ∃ q, Floored xTrain yTrain xTest nTest nLabels floor m.2 q ∧ out = setBlock s m.1 q := by
  unfold predStep storeProb Floored
  simp only [bind_ok_iff, exists_unit, pyAssert_eq_ok, Bool.and_eq_true, decide_eq_true_eq, pure_eq_ok,
    Except.ok.injEq, trainPredict_ok_iff]
  constructor
  · rintro ⟨p, h1, ⟨h2, h3⟩, q, h4, rfl⟩; exact ⟨q, ⟨p, h1, h2, h3, h4⟩, rfl⟩
  · rintro ⟨q, ⟨p, h1, h2, h3, h4⟩, rfl⟩; exact ⟨p, h1, ⟨h2, h3⟩, q, h4, rfl⟩

/-- A loop that never reads what it writes. -/
theorem foldlM_pure {σ α β : Type} (f : σ → α → Py σ) (R : α → β → Prop) (g : σ → α → β → σ)
    (hf : ∀ s a out, f s a = .ok out ↔ ∃ b, R a b ∧ out = g s a b) (l : List α) (s out : σ) :
    l.foldlM f s = .ok out ↔
      ∃ bs, List.Forall₂ R l bs ∧ out = (l.zip bs).foldl (fun s ab => g s ab.1 ab.2) s := by
  induction l generalizing s with
  | nil =>
    rw [List.foldlM_nil]
    constructor
    · intro h
      cases h
      exact ⟨[], .nil, rfl⟩
    · rintro ⟨bs, h, rfl⟩
      cases h; rfl
  | cons a l ih =>
    rw [List.foldlM_cons, bind_ok_iff]
    constructor
    · rintro ⟨s', h1, h2⟩
      obtain ⟨b, hb, rfl⟩ := (hf _ _ _).1 h1
      obtain ⟨bs, hbs, rfl⟩ := (ih _).1 h2
      exact ⟨b :: bs, .cons hb hbs, rfl⟩
    · rintro ⟨bs, h, rfl⟩
      cases h with
      | cons hb hbs => exact ⟨_, (hf _ _ _).2 ⟨_, hb, rfl⟩, (ih _).2 ⟨_, hbs, rfl⟩⟩

section
variable {K : Type}

theorem setBlock_keys (s : Cols (Str × Int) K) (m : Str) (q : Mat K) : (setBlock s m q).map (·.1) = s.map (·.1) := by
  unfold setBlock
  rw [List.map_map]
  refine List.map_congr_left fun c _ => ?_
  simp only [Function.comp]
  split <;> rfl

theorem blocks_keys {α : Type} (l : List (α × Mat K)) (name : α → Str) (s : Cols (Str × Int) K) :
    (l.foldl (fun s ab => setBlock s (name ab.1) ab.2) s).map (·.1) = s.map (·.1) := by
  induction l generalizing s with
  | nil => rfl
  | cons a l ih => rw [List.foldl_cons, ih, setBlock_keys]

theorem blocks_other {α : Type} (l : List (α × Mat K)) (name : α → Str) (s : Cols (Str × Int) K)
    {c : (Str × Int) × List (Flt K)} (h : ∀ ab ∈ l, name ab.1 ≠ c.1.1)
    (hc : c ∈ l.foldl (fun s ab => setBlock s (name ab.1) ab.2) s) : c ∈ s := by
  induction l generalizing s with
  | nil => exact hc
  | cons a l ih =>
    rw [List.foldl_cons] at hc
    have := ih (setBlock s (name a.1) a.2) (fun ab hab => h ab (by simp [hab])) hc
    obtain ⟨d, hd, e⟩ := List.mem_map.1 this
    by_cases hda : d.1.1 = name a.1
    · rw [if_pos hda] at e
      exact absurd (by rw [← e]; exact hda.symm) (h a (by simp))
    · rw [if_neg hda] at e
      exact e ▸ hd

theorem blocks_col {α : Type} (l : List (α × Mat K)) (name : α → Str) (hn : (l.map fun ab => name ab.1).Nodup)
    (s : Cols (Str × Int) K) {a : α} {q : Mat K} (ha : (a, q) ∈ l) {c : (Str × Int) × List (Flt K)}
    (hc : c ∈ l.foldl (fun s ab => setBlock s (name ab.1) ab.2) s) (hname : c.1.1 = name a) :
    c.2 = colAt q c.1.2.toNat := by
  induction l generalizing s with
  | nil => simp at ha
  | cons b l ih =>
    rw [List.map_cons, List.nodup_cons] at hn
    rw [List.foldl_cons] at hc
    rcases List.mem_cons.1 ha with rfl | ha
    · have := blocks_other l name _ (c := c) (by
        intro ab hab e
        exact hn.1 (List.mem_map.2 ⟨ab, hab, by rw [e, hname]⟩)) hc
      obtain ⟨d, hd, e⟩ := List.mem_map.1 this
      by_cases hda : d.1.1 = name a
      · rw [if_pos hda] at e
        rw [← e]
      · rw [if_neg hda] at e
        rw [e] at hda
        exact absurd hname hda
    · exact ih hn.2 _ ha hc

theorem labelsOf_product {names : List Str} {labels : List Int} (hn : names.Nodup) {m : Str} (hm : m ∈ names) :
    (product names labels).filterMap (fun k => if k.1 = m then some k.2 else none) = labels := by
  have hsame : ∀ a : Str, ((labels.map fun b => (a, b)).filterMap fun k : Str × Int => if k.1 = m then some k.2 else none) =
      if a = m then labels else [] := by
    intro a
    rw [List.filterMap_map]
    by_cases h : a = m
    · rw [if_pos h]
      simp only [Function.comp_def, h, if_true, List.filterMap_some]
    · rw [if_neg h]
      simp only [Function.comp_def, h, if_false, List.filterMap_none]
  unfold product
  rw [List.filterMap_flatMap]
  simp only [hsame]
  induction names with
  | nil => simp at hm
  | cons a l ih =>
    rw [List.nodup_cons] at hn
    rw [List.flatMap_cons]
    by_cases h : a = m
    · rw [if_pos h]
      have : (l.flatMap fun a => if a = m then labels else []) = [] := by
        rw [List.flatMap_eq_nil_iff]
        intro b hb
        rw [if_neg]
        rintro rfl
        exact hn.1 (h ▸ hb)
      rw [this, List.append_nil]
    · rw [if_neg h, List.nil_append]
      exact ih hn.2 (by
        rcases List.mem_cons.1 hm with rfl | hm
        · exact absurd rfl h
        · exact hm)

theorem inOrder_product {t : PredTable K} {names : List Str} {n : Nat} (hk : t.cols.map (·.1) = product names (rangeList n))
    (hl : t.labels.length = n) (hn : names.Nodup) {m : Str} (hm : m ∈ names) : InOrder t m := by
  unfold InOrder
  have : labelsOf t m = (t.cols.map (·.1)).filterMap fun k => if k.1 = m then some k.2 else none := by
    unfold labelsOf
    rw [List.filterMap_map]; rfl
  rw [this, hk, labelsOf_product hn hm, hl]; rfl

end

theorem normalizeRows_ok_iff (p q : Mat ℝ) :
    normalizeRows p = .ok q ↔ 1 ≤ p.ncols ∧ q = ⟨p.ncols, p.rows.map fun r => r.map fun v => v.sub (logsumexp r)⟩ := by
  unfold normalizeRows
  rw [pyAssert_bind]
  by_cases h : 1 ≤ p.ncols
  · rw [if_pos (decide_eq_true h), pure_eq_ok, Except.ok.injEq]
    exact ⟨fun e => ⟨h, e.symm⟩, fun e => e.2.symm⟩
  · rw [if_neg (by simpa using h)]
    simp [h]

/-- The matrix has `n` columns in every row. -/
def Rect (p : Mat ℝ) : Prop := ∀ r ∈ p.rows, r.length = p.ncols

theorem getPredLogProb_ok_iff (xTrain : Features D) (yTrain : LabelVec) (xTest : Features D) (nLabels : Nat)
    (methods : List (Str × Estimator D)) (floor : Flt ℝ) (t : PredTable ℝ) :
    getPredLogProb xTrain yTrain xTest nLabels methods floor = .ok t ↔
      ∃ nTest, GoodData xTrain yTrain xTest nLabels floor nTest ∧
      ∃ qs, List.Forall₂ (fun m q => Floored xTrain yTrain xTest nTest nLabels floor m.2 q) methods qs ∧
        t = ⟨sortLevel (methods.map fun m => m.1), rangeList nLabels, nTest,
          (methods.zip qs).foldl (fun s ab => setBlock s ab.1.1 ab.2)
            (emptyCols nTest (product (methods.map fun m => m.1) (rangeList nLabels)))⟩ := by
  unfold getPredLogProb
  rw [bind_ok_iff]
  refine exists_congr fun nTest => ?_
  rw [C81_checks]
  refine and_congr_right fun _ => ?_
  rw [bind_ok_iff]
  simp only [foldlM_pure _ _ (fun s (a : Str × Estimator D) q => setBlock s a.1 q)
    (predStep_ok_iff xTrain yTrain xTest nTest nLabels floor), pure_eq_ok, Except.ok.injEq]
  constructor
  · rintro ⟨cols, ⟨bs, h1, rfl⟩, rfl⟩; exact ⟨bs, h1, rfl⟩
  · rintro ⟨bs, h1, rfl⟩; exact ⟨_, ⟨bs, h1, rfl⟩, rfl⟩

/-- **C81, table.**  The table has a row for each test point and a column for each method and label and no other
columns, and the columns of a method are in the order of the labels.  The entries of a method come from what the method
predicts, and from nothing else: each row is the row of predictions with entries below the floor replaced by the
floor, minus the logarithm of its total. -/
theorem C81_table {xTrain : Features D} {yTrain : LabelVec} {xTest : Features D} {nLabels : Nat}
    {methods : List (Str × Estimator D)} {floor : Flt ℝ} {t : PredTable ℝ} (hn : (methods.map fun m => m.1).Nodup)
    (hrect : ∀ m ∈ methods, ∀ p, Predicts xTrain yTrain xTest m.2 p → Rect p)
    (h : getPredLogProb xTrain yTrain xTest nLabels methods floor = .ok t) :
    GoodData xTrain yTrain xTest nLabels floor t.nrows ∧
    t.labels = (List.range nLabels).map (fun (k : Nat) => (k : Int)) ∧
    t.methods.Perm (methods.map fun m => m.1) ∧ t.methods.Pairwise (· ≤ ·) ∧
    (t.cols.map (·.1)).Nodup ∧ (∀ c ∈ t.cols, c.1.1 ∈ t.methods ∧ c.1.2 ∈ t.labels ∧ c.2.length = t.nrows) ∧
    ∀ m ∈ methods, ∃ p q, Predicts xTrain yTrain xTest m.2 p ∧ p.rows.length = t.nrows ∧ p.ncols = nLabels ∧
      InOrder t m.1 ∧ IsMatrix t m.1 q ∧ List.Forall₂ (fun r r' => r'.length = r.length ∧
        (Proper (r.map fun v => max floor v) →
          r' = shiftRow (Real.log ((r.map fun v => prob (max floor v)).sum)) (r.map fun v => max floor v))) p.rows q.rows := by
  obtain ⟨nTest, hg, qs, hq, rfl⟩ := (getPredLogProb_ok_iff _ _ _ _ _ _ _).1 h
  have hkeys : ((methods.zip qs).foldl (fun s (ab : (Str × Estimator D) × Mat ℝ) => setBlock s ab.1.1 ab.2)
      (emptyCols nTest (product (methods.map fun m => m.1) (rangeList nLabels)))).map (·.1) =
      product (methods.map fun m => m.1) (rangeList nLabels) := by
    rw [blocks_keys (name := fun a : Str × Estimator D => a.1), emptyCols_keys]
  have hperm := sortLevel_perm (methods.map fun m => m.1)
  have hnod := product_nodup hn (labels_nodup nLabels)
  have hzip : ((methods.zip qs).map fun ab => ab.1.1) = methods.map fun m => m.1 := by
    have : ((methods.zip qs).map fun ab => ab.1.1) = ((methods.zip qs).map Prod.fst).map fun m => m.1 := by
      rw [List.map_map]; rfl
    rw [this, List.map_fst_zip hq.length_eq.le]
  -- the block of a method
  have hblock : ∀ m ∈ methods, ∃ q, (m, q) ∈ methods.zip qs ∧ Floored xTrain yTrain xTest nTest nLabels floor m.2 q := by
    intro m hm
    obtain ⟨i, hi, rfl⟩ := List.getElem_of_mem hm
    have hi' : i < qs.length := hq.length_eq ▸ hi
    exact ⟨qs[i], List.mem_iff_getElem.2 ⟨i, by simp [hi, hi'], by simp⟩, (List.forall₂_iff_get.1 hq).2 i hi hi'⟩
  have hlen : ∀ q m, Floored xTrain yTrain xTest nTest nLabels floor m q → q.rows.length = nTest := by
    rintro q m ⟨p, -, h1, -, h2⟩
    obtain ⟨-, rfl⟩ := (normalizeRows_ok_iff _ _).1 h2
    simpa [floorMat] using h1
  refine ⟨hg, rfl, hperm, sortLevel_sorted _, by rw [hkeys]; exact hnod, ?_, ?_⟩
  · intro c hc
    have hk : c.1 ∈ product (methods.map fun m => m.1) (rangeList nLabels) := by
      rw [← hkeys]; exact List.mem_map_of_mem hc
    rw [product_mem] at hk
    refine ⟨hperm.mem_iff.2 hk.1, hk.2, ?_⟩
    obtain ⟨m, hm, e⟩ := List.mem_map.1 hk.1
    obtain ⟨q, h1, h2⟩ := hblock m hm
    rw [blocks_col _ (fun a : Str × Estimator D => a.1) (by rw [hzip]; exact hn) _ h1 hc e.symm]
    simp [colAt, hlen q m.2 h2]
  · intro m hm
    obtain ⟨q, h1, h2⟩ := hblock m hm
    have hql := hlen q m.2 h2
    obtain ⟨p, g1, g2, g3, g4⟩ := h2
    obtain ⟨hc, rfl⟩ := (normalizeRows_ok_iff _ _).1 g4
    refine ⟨p, _, g1, g2, g3, inOrder_product hkeys (by simp [rangeList]) hn (List.mem_map_of_mem hm),
      ⟨?_, hql, ?_, ?_⟩, ?_⟩
    · simp [floorMat, g3, rangeList]
    · intro r hr
      obtain ⟨r0, hr0, rfl⟩ := List.mem_map.1 hr
      obtain ⟨r1, hr1, rfl⟩ := List.mem_map.1 hr0
      simpa [floorMat] using hrect m hm p g1 r1 hr1
    · intro k hk
      have hk' : k < nLabels := by simpa [rangeList] using hk
      have : (m.1, (k : Int)) ∈ ((methods.zip qs).foldl
          (fun s (ab : (Str × Estimator D) × Mat ℝ) => setBlock s ab.1.1 ab.2)
          (emptyCols nTest (product (methods.map fun m => m.1) (rangeList nLabels)))).map (·.1) := by
        rw [hkeys, product_mem]
        exact ⟨List.mem_map_of_mem hm, List.mem_map.2 ⟨k, List.mem_range.2 hk', rfl⟩⟩
      obtain ⟨c, hc1, hc2⟩ := List.mem_map.1 this
      have hcol := blocks_col _ (fun a : Str × Estimator D => a.1) (by rw [hzip]; exact hn) _ h1 hc1 (by rw [hc2])
      refine ⟨c.2, hasCol_of_mem (by rw [hkeys]; exact hnod) (by rw [← hc2]; exact hc1), ?_⟩
      intro i r hr
      rw [hcol, hc2]
      have hi := (List.getElem?_eq_some_iff.1 hr).1
      unfold colAt
      rw [getD_eq _ _ (by simpa using hi)]
      have hr2 := (List.getElem?_eq_some_iff.1 hr).2
      simp only [List.getElem_map] at hr2 ⊢
      rw [hr2]
      have hrl : r.length = nLabels := by
        obtain ⟨r0, hr0, rfl⟩ := List.mem_map.1 (List.mem_of_getElem? hr)
        obtain ⟨r1, hr1, rfl⟩ := List.mem_map.1 hr0
        simpa [floorMat, g3] using hrect m hm p g1 r1 hr1
      simp [hrl, hk']
    · unfold floorMat
      rw [List.map_map, List.forall₂_map_right_iff]
      refine List.forall₂_same.2 fun r _ => ⟨by simp, fun hp => ?_⟩
      have := normalize_row hp
      rw [List.map_map] at this
      have e : (r.map fun v => prob (max floor v)) = (r.map fun v => max floor v).map prob := by
        rw [List.map_map]; rfl
      rw [e, ← this]
      simp only [Function.comp_def, List.map_map]; rfl

/-- **C81, normalised.**  If the floor is a number, or if the method predicts something for every test point, then every
row of the table is a distribution. -/
theorem C81_normalised {xTrain : Features D} {yTrain : LabelVec} {xTest : Features D} {nLabels : Nat}
    {methods : List (Str × Estimator D)} {floor : Flt ℝ} {t : PredTable ℝ} (hn : (methods.map fun m => m.1).Nodup)
    (hrect : ∀ m ∈ methods, ∀ p, Predicts xTrain yTrain xTest m.2 p → Rect p)
    (hprop : ∀ m ∈ methods, ∀ p, Predicts xTrain yTrain xTest m.2 p → ∀ r ∈ p.rows,
      (∀ v ∈ r, v ≠ .nan ∧ v ≠ .pinf) ∧ (Proper r ∨ ∃ f : ℝ, floor = .fin f))
    (h : getPredLogProb xTrain yTrain xTest nLabels methods floor = .ok t) {m : Str × Estimator D} (hm : m ∈ methods)
    {q : Mat ℝ} (hq : IsMatrix t m.1 q) : ∀ r ∈ q.rows, IsDist r := by
  obtain ⟨hg, -, -, -, -, -, hall⟩ := C81_table hn hrect h
  obtain ⟨p, q', g1, g2, g3, -, g4, g5⟩ := hall m hm
  rw [← isMatrix_unique rfl rfl (fun _ _ => Iff.rfl) hq g4]
  intro r' hr'
  obtain ⟨i, hi, rfl⟩ := List.getElem_of_mem hr'
  have hi0 : i < p.rows.length := g5.length_eq ▸ hi
  have h2 := (List.forall₂_iff_get.1 g5).2 i hi0 hi
  have hr : p.rows.get ⟨i, hi0⟩ ∈ p.rows := List.getElem_mem hi0
  obtain ⟨a1, a2⟩ := hprop m hm p g1 _ hr
  have hne : p.rows.get ⟨i, hi0⟩ ≠ [] := by
    intro e
    have := hrect m hm p g1 _ hr
    rw [e, g3, List.length_nil] at this
    obtain ⟨v, l, hv⟩ := List.exists_cons_of_ne_nil hg.nonempty
    have := hg.range v (by simp [hv])
    omega
  have hfl : floor < .fin 0 := hg.floor
  have hP : Proper ((p.rows.get ⟨i, hi0⟩).map fun v => max floor v) := by
    constructor
    · intro v hv
      obtain ⟨w, hw, rfl⟩ := List.mem_map.1 hv
      rcases le_total floor w with hle | hle
      · rw [max_eq_right hle]; exact a1 w hw
      · rw [max_eq_left hle]
        constructor
        · rintro rfl; exact absurd hfl (not_lt.2 (Flt.le_nan _))
        · rintro rfl; exact absurd hfl (not_lt.2 (Flt.fin_le_pinf _))
    · rcases a2 with ⟨-, x, hx⟩ | ⟨f, hf⟩
      · refine ?_
        rcases le_total floor (.fin x) with hle | hle
        · exact ⟨x, List.mem_map.2 ⟨_, hx, max_eq_right hle⟩⟩
        · cases floor with
          | fin f => exact ⟨f, List.mem_map.2 ⟨_, hx, max_eq_left hle⟩⟩
          | ninf => exact absurd hle (not_le.2 (ninf_lt_fin x))
          | pinf => exact absurd hfl (not_lt.2 (Flt.fin_le_pinf _))
          | nan => exact absurd hfl (not_lt.2 (Flt.le_nan _))
      · obtain ⟨v, l, hv⟩ := List.exists_cons_of_ne_nil hne
        obtain ⟨b1, b2⟩ := a1 v (by rw [hv]; simp)
        cases v with
        | fin x => exact ⟨max f x, List.mem_map.2 ⟨.fin x, by rw [hv]; simp, by
            rw [hf]
            rcases le_total f x with h | h
            · rw [max_eq_right h, max_eq_right (Flt.fin_le_fin.2 h)]
            · rw [max_eq_left h, max_eq_left (Flt.fin_le_fin.2 h)]⟩⟩
        | ninf => exact ⟨f, List.mem_map.2 ⟨.ninf, by rw [hv]; simp, by rw [hf]; exact max_eq_left (Flt.ninf_le _)⟩⟩
        | pinf => exact absurd rfl b2
        | nan => exact absurd rfl b1
  have h3 := h2.2 hP
  change IsDist (q'.rows.get ⟨i, hi⟩)
  rw [h3]
  refine ⟨(proper_shift hP _).1, ?_⟩
  have e : ((p.rows.get ⟨i, hi0⟩).map fun v => prob (max floor v)).sum =
      (((p.rows.get ⟨i, hi0⟩).map fun v => max floor v).map prob).sum := by
    rw [List.map_map]; rfl
  rw [e, sum_shift hP.1, Real.exp_neg, Real.exp_log (proper_sum_pos hP), mul_inv_cancel₀ (proper_sum_pos hP).ne']

/-! ### The floor -/

theorem prob_max {f : ℝ} {v : Flt ℝ} (h : v ≠ .nan ∧ v ≠ .pinf) :
    prob (max (.fin f) v) = max (Real.exp f) (prob v) := by
  cases v with
  | fin x =>
    rcases le_total f x with h | h
    · rw [max_eq_right (Flt.fin_le_fin.2 h)]
      exact (max_eq_right (Real.exp_le_exp.2 h)).symm
    · rw [max_eq_left (Flt.fin_le_fin.2 h)]
      exact (max_eq_left (Real.exp_le_exp.2 h)).symm
  | ninf =>
    rw [max_eq_left (Flt.ninf_le _)]
    exact (max_eq_left (Real.exp_pos f).le).symm
  | pinf => exact absurd rfl h.2
  | nan => exact absurd rfl h.1

/-- The total of a floored distribution. -/
theorem floored_total {r : List (Flt ℝ)} (h : IsDist r) (f : ℝ) :
    1 ≤ (r.map fun v => prob (max (.fin f) v)).sum ∧
    (r.map fun v => prob (max (.fin f) v)).sum ≤ 1 + r.length * Real.exp f ∧
    ((∃ v ∈ r, v < .fin f) → 1 < (r.map fun v => prob (max (.fin f) v)).sum) := by
  refine ⟨?_, ?_, ?_⟩
  · rw [← h.2]
    refine List.sum_le_sum fun v hv => ?_
    rw [prob_max (h.1 v hv)]
    exact le_max_right _ _
  · have e : 1 + (r.length : ℝ) * Real.exp f = (r.map fun v => prob v + Real.exp f).sum := by
      rw [List.sum_map_add, h.2]; simp
    rw [e]
    refine List.sum_le_sum fun v hv => ?_
    rw [prob_max (h.1 v hv)]
    exact max_le (le_add_of_nonneg_left (prob_nonneg v)) (le_add_of_nonneg_right (Real.exp_pos f).le)
  · rintro ⟨v, hv, hlt⟩
    rw [← h.2]
    refine List.sum_lt_sum _ _ (fun w hw => ?_) ⟨v, hv, ?_⟩
    · rw [prob_max (h.1 w hw)]; exact le_max_right _ _
    · rw [max_eq_left hlt.le]
      obtain ⟨h1, h2⟩ := h.1 v hv
      cases v with
      | fin x => exact Real.exp_lt_exp.2 (Flt.fin_lt_fin.1 hlt)
      | ninf => exact Real.exp_pos f
      | pinf => exact absurd rfl h2
      | nan => exact absurd rfl h1

theorem floored_proper {r : List (Flt ℝ)} (h : IsDist r) (f : ℝ) : Proper (r.map fun v => max (.fin f) v) := by
  have hp := isDist_proper h
  constructor
  · intro v hv
    obtain ⟨w, hw, rfl⟩ := List.mem_map.1 hv
    rcases le_total (Flt.fin f) w with hle | hle
    · rw [max_eq_right hle]; exact h.1 w hw
    · rw [max_eq_left hle]; simp
  · obtain ⟨x, hx⟩ := hp.2
    refine ⟨max f x, List.mem_map.2 ⟨_, hx, ?_⟩⟩
    rcases le_total f x with h | h
    · rw [max_eq_right h, max_eq_right (Flt.fin_le_fin.2 h)]
    · rw [max_eq_left h, max_eq_left (Flt.fin_le_fin.2 h)]

/-- **C81, floor.**  For a method that predicts distributions and a floor `f`, an entry of the table is what the method
predicts, or the floor where that is larger, minus a number between 0 and `log (1 + n exp f)`, which is the same for the
whole row.  So it is at least `f - log (1 + n exp f)`.  Where the floor replaces the prediction, the entry in the
table is smaller than the floor. -/
theorem C81_floor {xTrain : Features D} {yTrain : LabelVec} {xTest : Features D} {nLabels : Nat}
    {methods : List (Str × Estimator D)} {f : ℝ} {t : PredTable ℝ} (hn : (methods.map fun m => m.1).Nodup)
    (hrect : ∀ m ∈ methods, ∀ p, Predicts xTrain yTrain xTest m.2 p → Rect p)
    (h : getPredLogProb xTrain yTrain xTest nLabels methods (.fin f) = .ok t) {m : Str × Estimator D} (hm : m ∈ methods)
    {p : Mat ℝ} (hp : Predicts xTrain yTrain xTest m.2 p) (hd : ∀ r ∈ p.rows, IsDist r)
    {q : Mat ℝ} (hq : IsMatrix t m.1 q) :
    List.Forall₂ (fun r r' => ∃ c : ℝ, 0 ≤ c ∧ c ≤ Real.log (1 + nLabels * Real.exp f) ∧
      List.Forall₂ (fun v v' => v' = (max (.fin f) v).sub (.fin c) ∧
        .fin (f - Real.log (1 + nLabels * Real.exp f)) ≤ v' ∧ (v < .fin f → v' < .fin f)) r r') p.rows q.rows := by
  obtain ⟨hg, -, -, -, -, -, hall⟩ := C81_table hn hrect h
  obtain ⟨p', q', g1, g2, g3, -, g4, g5⟩ := hall m hm
  rw [← isMatrix_unique rfl rfl (fun _ _ => Iff.rfl) hq g4]
  have : p' = p := by
    have h1 := (trainPredict_ok_iff xTrain yTrain xTest m.2 p').2 g1
    have h2 := (trainPredict_ok_iff xTrain yTrain xTest m.2 p).2 hp
    rw [h1] at h2
    exact Except.ok.inj h2
  subst this
  rw [List.forall₂_iff_get] at g5 ⊢
  refine ⟨g5.1, fun i h1 h2 => ?_⟩
  have hr : p'.rows.get ⟨i, h1⟩ ∈ p'.rows := List.getElem_mem h1
  have hdi := hd _ hr
  obtain ⟨z1, z2, z3⟩ := floored_total hdi f
  rw [hrect m hm p' g1 _ hr, g3] at z2
  have hz0 : 0 < ((p'.rows.get ⟨i, h1⟩).map fun v => prob (max (.fin f) v)).sum := lt_of_lt_of_le one_pos z1
  have hc := Real.log_le_log hz0 z2
  rw [(g5.2 i h1 h2).2 (floored_proper hdi f)]
  refine ⟨_, Real.log_nonneg z1, hc, ?_⟩
  unfold shiftRow
  rw [List.map_map, List.forall₂_map_right_iff]
  refine List.forall₂_same.2 fun v hv => ⟨rfl, ?_, ?_⟩
  · simp only [Function.comp]
    obtain ⟨v1, v2⟩ := hdi.1 v hv
    cases v with
    | fin x =>
      have e : max (Flt.fin f) (Flt.fin x) = .fin (max f x) := by
        rcases le_total f x with h | h
        · rw [max_eq_right h, max_eq_right (Flt.fin_le_fin.2 h)]
        · rw [max_eq_left h, max_eq_left (Flt.fin_le_fin.2 h)]
      rw [e, Flt.sub_fin, Flt.fin_le_fin]
      have := le_max_left f x
      linarith
    | ninf =>
      rw [max_eq_left (Flt.ninf_le _), Flt.sub_fin, Flt.fin_le_fin]
      linarith
    | pinf => exact absurd rfl v2
    | nan => exact absurd rfl v1
  · intro hlt
    simp only [Function.comp]
    rw [max_eq_left hlt.le, Flt.sub_fin, Flt.fin_lt_fin]
    have := Real.log_pos (z3 ⟨v, hv, hlt⟩)
    linarith

/-- **C81, success.**  If the data have the documented form and every method predicts a matrix of the right shape, there is
a table. -/
theorem C81_success {xTrain : Features D} {yTrain : LabelVec} {xTest : Features D} {nLabels nTest : Nat}
    {methods : List (Str × Estimator D)} {floor : Flt ℝ} (hg : GoodData xTrain yTrain xTest nLabels floor nTest)
    (hp : ∀ m ∈ methods, ∃ p, Predicts xTrain yTrain xTest m.2 p ∧ p.rows.length = nTest ∧ p.ncols = nLabels) :
    ∃ t, getPredLogProb xTrain yTrain xTest nLabels methods floor = .ok t := by
  have hpos : 1 ≤ nLabels := by
    obtain ⟨v, l, hv⟩ := List.exists_cons_of_ne_nil hg.nonempty
    have := hg.range v (by simp [hv])
    omega
  have : ∀ l : List (Str × Estimator D), (∀ m ∈ l, m ∈ methods) →
      ∃ qs, List.Forall₂ (fun m q => Floored xTrain yTrain xTest nTest nLabels floor m.2 q) l qs := by
    intro l
    induction l with
    | nil => exact fun _ => ⟨[], .nil⟩
    | cons m l ih =>
      intro hl
      obtain ⟨qs, hqs⟩ := ih fun m hm => hl m (by simp [hm])
      obtain ⟨p, h1, h2, h3⟩ := hp m (hl m (by simp))
      exact ⟨_ :: qs, .cons ⟨p, h1, h2, h3, (normalizeRows_ok_iff _ _).2 ⟨by rw [floorMat, h3]; exact hpos, rfl⟩⟩ hqs⟩
  obtain ⟨qs, hqs⟩ := this methods fun _ h => h
  exact ⟨_, (getPredLogProb_ok_iff _ _ _ _ _ _ _).2 ⟨nTest, hg, qs, hqs, rfl⟩⟩

/-- **C81, wrong shape.**  A method whose predictions have the wrong shape stops the run with AssertionError, if the
methods before it succeed. -/
theorem C81_wrong_shape {xTrain : Features D} {yTrain : LabelVec} {xTest : Features D} {nLabels nTest : Nat}
    {before after : List (Str × Estimator D)} {m : Str × Estimator D} {floor : Flt ℝ}
    (hg : GoodData xTrain yTrain xTest nLabels floor nTest)
    (hb : ∀ m ∈ before, ∃ p, Predicts xTrain yTrain xTest m.2 p ∧ p.rows.length = nTest ∧ p.ncols = nLabels)
    {p : Mat ℝ} (hp : Predicts xTrain yTrain xTest m.2 p) (hs : p.rows.length ≠ nTest ∨ p.ncols ≠ nLabels) :
    getPredLogProb xTrain yTrain xTest nLabels (before ++ m :: after) floor = .error .assertion := by
  have hpos : 1 ≤ nLabels := by
    obtain ⟨v, l, hv⟩ := List.exists_cons_of_ne_nil hg.nonempty
    have := hg.range v (by simp [hv])
    omega
  unfold getPredLogProb
  rw [(C81_checks _ _ _ _ _ _).2 hg, ok_bind]
  dsimp only
  rw [foldlM_error _ before m after _ .assertion]
  · rfl
  · intro b hb' s
    obtain ⟨p, h1, h2, h3⟩ := hb b hb'
    exact ⟨_, (predStep_ok_iff _ _ _ _ _ _ _ _ _).2 ⟨_, ⟨p, h1, h2, h3,
      (normalizeRows_ok_iff _ _).2 ⟨by rw [floorMat, h3]; exact hpos, rfl⟩⟩, rfl⟩⟩
  · intro s
    unfold predStep storeProb
    rw [(trainPredict_ok_iff _ _ _ _ _).2 hp, ok_bind, pyAssert_bind, if_neg]
    rw [Bool.and_eq_true, decide_eq_true_eq, decide_eq_true_eq]
    rintro ⟨h1, h2⟩
    rcases hs with hs | hs
    · exact hs h1
    · exact hs h2

/-- **C80, in the table.**  `JustNoise` on Boolean labels stops `get_pred_log_prob` with AssertionError, although the
checks accept Boolean labels. -/
theorem C80_bool {xTrain : Features D} {yTrain : LabelVec} {xTest : Features D} {nLabels nTest : Nat}
    {name : Str} {after : List (Str × Estimator D)} {floor : Flt ℝ} {pseudo : ℝ}
    (hg : GoodData xTrain yTrain xTest nLabels floor nTest) (hk : yTrain.kind = 'b') :
    getPredLogProb xTrain yTrain xTest nLabels ((name, justNoise nLabels pseudo) :: after) floor = .error .assertion := by
  unfold getPredLogProb
  rw [(C81_checks _ _ _ _ _ _).2 hg, ok_bind]
  dsimp only
  rw [List.foldlM_cons]
  have : trainPredict xTrain yTrain xTest (justNoise nLabels pseudo) = .error .assertion := by
    unfold trainPredict justNoise
    rw [C80_reject (by rintro ⟨-, h, -⟩; rw [hk] at h; revert h; decide)]
    rfl
  unfold predStep storeProb
  simp only [this, error_bind]

/-- **C80, as a method.**  For data of the documented form with integer labels, `JustNoise` predicts the smoothed
frequencies for every test point, and nothing else. -/
theorem C80_method {xTrain : Features D} {yTrain : LabelVec} {xTest : Features D} {nLabels nTest : Nat} {floor : Flt ℝ}
    {pseudo : ℝ} (hg : GoodData xTrain yTrain xTest nLabels floor nTest) (hk : yTrain.kind = 'i') (hp : 0 ≤ pseudo)
    (p : Mat ℝ) :
    Predicts xTrain yTrain xTest (justNoise nLabels pseudo) p ↔
      p = ⟨nLabels, List.replicate nTest (logRow ((List.range nLabels).map fun (k : Nat) =>
        ((yTrain.vals.count (k : Int) : ℝ) + pseudo) / ((yTrain.vals.length : ℝ) + (nLabels : ℝ) * pseudo)))⟩ := by
  have hl : GoodLabels yTrain nLabels := by
    obtain ⟨v, l, hv⟩ := List.exists_cons_of_ne_nil hg.nonempty
    have := hg.range v (by simp [hv])
    exact ⟨by omega, hk, hg.range⟩
  have ht : 0 < (yTrain.vals.length : ℝ) + (nLabels : ℝ) * pseudo := by
    have : 0 < (yTrain.vals.length : ℝ) := by exact_mod_cast List.length_pos_of_ne_nil hg.nonempty
    positivity
  obtain ⟨pred, h1, h2, -, h3, h4⟩ := C80_noise hl hp ht nTest
  obtain ⟨d, rest, hs, -⟩ := hg.test
  rw [← trainPredict_ok_iff, ← h2]
  have : justNoisePredict pred nTest = (⟨nLabels, List.replicate nTest pred⟩ : Mat ℝ) := by
    rw [← h3, ← h4]
  unfold trainPredict justNoise predictOf
  rw [h1]
  simp only [ok_bind, pure_eq_ok, (shapeAt_ok_iff xTest 0 nTest).2 (by rw [hs]; rfl), this, Except.ok.injEq]
  exact eq_comm

/-- **C80, the table.**  In a table made without a floor the entries of `JustNoise` are the logarithms of the smoothed
frequencies. -/
theorem C80_table {xTrain : Features D} {yTrain : LabelVec} {xTest : Features D} {nLabels : Nat}
    {methods : List (Str × Estimator D)} {t : PredTable ℝ} (hn : (methods.map fun m => m.1).Nodup)
    (hrect : ∀ m ∈ methods, ∀ p, Predicts xTrain yTrain xTest m.2 p → Rect p)
    (h : getPredLogProb xTrain yTrain xTest nLabels methods .ninf = .ok t) (hk : yTrain.kind = 'i') {name : Str}
    {pseudo : ℝ} (hp : 0 ≤ pseudo) (hm : (name, justNoise nLabels pseudo) ∈ methods) {q : Mat ℝ} (hq : IsMatrix t name q) :
    q.rows = List.replicate t.nrows (logRow ((List.range nLabels).map fun (k : Nat) =>
      ((yTrain.vals.count (k : Int) : ℝ) + pseudo) / ((yTrain.vals.length : ℝ) + (nLabels : ℝ) * pseudo))) := by
  obtain ⟨hg, -, -, -, -, -, hall⟩ := C81_table hn hrect h
  obtain ⟨p, q', g1, -, -, -, g4, g5⟩ := hall _ hm
  rw [← isMatrix_unique rfl rfl (fun _ _ => Iff.rfl) hq g4]
  have hl : GoodLabels yTrain nLabels := by
    obtain ⟨v, l, hv⟩ := List.exists_cons_of_ne_nil hg.nonempty
    have := hg.range v (by simp [hv])
    exact ⟨by omega, hk, hg.range⟩
  have ht : 0 < (yTrain.vals.length : ℝ) + (nLabels : ℝ) * pseudo := by
    have : 0 < (yTrain.vals.length : ℝ) := by exact_mod_cast List.length_pos_of_ne_nil hg.nonempty
    positivity
  obtain ⟨pred, -, h2, hd, -, -⟩ := C80_noise hl hp ht 0
  rw [C80_method hg hk hp, ← h2] at g1
  rw [← h2]
  subst g1
  have hmax : (pred.map fun v => max Flt.ninf v) = pred := by
    conv_rhs => rw [← List.map_id pred]
    refine List.map_congr_left fun v _ => ?_
    exact max_eq_right (Flt.ninf_le v)
  have hsum : Real.log ((pred.map fun v => prob (max .ninf v)).sum) = 0 := by
    have : (pred.map fun v => prob (max .ninf v)) = pred.map prob := by
      conv_rhs => rw [← hmax, List.map_map]
      rfl
    rw [this, hd.2, Real.log_one]
  have hprop : Proper pred := by
    refine ⟨hd.1, ?_⟩
    by_contra hc
    have : (pred.map prob).sum = 0 := by
      refine List.sum_eq_zero fun v hv => ?_
      obtain ⟨w, hw, rfl⟩ := List.mem_map.1 hv
      cases w with
      | fin x => exact absurd ⟨x, hw⟩ hc
      | _ => rfl
    rw [hd.2] at this
    exact one_ne_zero this
  have hshift : shiftRow 0 pred = pred := by
    unfold shiftRow
    conv_rhs => rw [← List.map_id pred]
    refine List.map_congr_left fun v _ => ?_
    cases v <;> simp [Flt.sub, Flt.add, Flt.neg]
  refine List.eq_replicate_iff.2 ⟨by rw [← g5.length_eq]; simp, fun r' hr' => ?_⟩
  obtain ⟨i, hi, rfl⟩ := List.getElem_of_mem hr'
  have hi0 : i < t.nrows := by have := g5.length_eq; simp at this; omega
  have := ((List.forall₂_iff_get.1 g5).2 i (by simpa using hi0) hi).2
  simp only [List.get_eq_getElem, List.getElem_replicate] at this
  rw [this (by rw [hmax]; exact hprop), hsum, hmax, hshift]

/-! ### Examples -/

/-- Four training points and two test points with one feature. -/
def exampleTrain : Features Unit := ⟨[4, 1], 'f', ()⟩
def exampleTest : Features Unit := ⟨[2, 1], 'f', ()⟩
def exampleY : LabelVec := ⟨'i', [0, 0, 1, 0]⟩

theorem exampleGood (floor : Flt ℝ) (h : floor < .fin 0) : GoodData exampleTrain exampleY exampleTest 2 floor 2 :=
  ⟨⟨1, [], rfl, [], rfl, rfl⟩, by norm_num, Or.inr rfl, by simp [exampleY], by simp [exampleY], rfl, h⟩

/-- An estimator that has probabilities only. -/
noncomputable def exampleEst : Estimator Unit := fun _ _ =>
  .ok ⟨fun _ => .error .typeError, fun _ => .ok ⟨2, [[.fin (1 / 4), .fin (3 / 4)], [.fin 0, .fin 1]]⟩⟩

theorem examplePredicts : Predicts exampleTrain exampleY exampleTest exampleEst
    ⟨2, [logRow [1 / 4, 3 / 4], logRow [0, 1]]⟩ := by
  refine ⟨_, rfl, Or.inr ⟨by simp, _, rfl, rfl, ?_⟩⟩
  simp [logRow, flog]

theorem exampleRect : ∀ m ∈ [("a".toList, exampleEst)], ∀ p, Predicts exampleTrain exampleY exampleTest m.2 p → Rect p := by
  intro m hm p hp
  simp only [List.mem_cons, List.not_mem_nil, or_false] at hm
  subst hm
  have h1 := (trainPredict_ok_iff _ _ _ _ p).2 hp
  have h2 := (trainPredict_ok_iff _ _ _ _ _).2 examplePredicts
  rw [h1] at h2
  rw [Except.ok.inj h2]
  intro r hr
  simp only [List.mem_cons, List.not_mem_nil, or_false] at hr
  rcases hr with rfl | rfl <;> rfl

/-- With the floor -2 the second row becomes `-2 - log (exp (-2) + 1)` and `- log (exp (-2) + 1)`, so its first entry
is below the floor. -/
example : ∃ t, getPredLogProb exampleTrain exampleY exampleTest 2 [("a".toList, exampleEst)] (.fin (-2)) = .ok t ∧
    ∃ q, IsMatrix t "a".toList q ∧ ∃ v, (∃ r, q.rows[1]? = some r ∧ r[0]? = some v) ∧ v < .fin (-2) := by
  obtain ⟨t, ht⟩ := C81_success (methods := [("a".toList, exampleEst)]) (exampleGood (.fin (-2)) (by norm_num))
    (by simpa using ⟨_, examplePredicts, rfl, rfl⟩)
  refine ⟨t, ht, ?_⟩
  obtain ⟨-, -, -, -, -, -, hall⟩ := C81_table (by simp) exampleRect ht
  obtain ⟨-, q, -, -, -, -, hq, -⟩ := hall ("a".toList, exampleEst) (by simp)
  refine ⟨q, hq, ?_⟩
  have := C81_floor (by simp) exampleRect ht (m := ("a".toList, exampleEst)) (by simp) examplePredicts (by
    intro r hr
    simp only [List.mem_cons, List.not_mem_nil, or_false] at hr
    rcases hr with rfl | rfl <;> apply isDist_logRow <;> exact ⟨by norm_num, by norm_num⟩) hq
  match hr : q.rows, this with
  | [r1, r2], .cons _ (.cons ⟨c, _, _, h2⟩ .nil) =>
    match r2, h2 with
    | [v, w], .cons h3 _ =>
      exact ⟨v, ⟨_, rfl, rfl⟩, h3.2.2 (by simpa [logRow] using ninf_lt_fin (-2))⟩

/-- `JustNoise` in a table. -/
example : ∃ t, getPredLogProb exampleTrain exampleY exampleTest 2 [("b".toList, justNoise 2 1)] .ninf = .ok t := by
  refine C81_success (exampleGood _ (ninf_lt_fin 0)) ?_
  obtain ⟨pred, h1, -, -, h3, h4⟩ := C80_noise (y := exampleY) (n := 2) (pseudo := 1)
    ⟨by norm_num, rfl, by simp [exampleY]⟩ (by norm_num) (by norm_num [exampleY]) 2
  simp only [List.mem_cons, List.not_mem_nil, or_false, forall_eq]
  refine ⟨justNoisePredict pred 2, ⟨_, by unfold justNoise; rw [h1]; rfl, Or.inl rfl⟩, by rw [h4]; simp, h3⟩

/-- Three of the four labels are 0; with pseudo count 1 the probabilities are 4/6 and 2/6. -/
example : ∃ t, getPredLogProb exampleTrain exampleY exampleTest 2 [("b".toList, justNoise 2 1)] .ninf = .ok t ∧
    ∀ q, IsMatrix t "b".toList q → q.rows = List.replicate t.nrows (logRow [4 / 6, 2 / 6]) := by
  have hp := C80_method (exampleGood .ninf (ninf_lt_fin 0)) rfl (pseudo := 1) (by norm_num)
  obtain ⟨t, ht⟩ := C81_success (methods := [("b".toList, justNoise 2 1)]) (exampleGood _ (ninf_lt_fin 0))
    (by simpa using ⟨_, (hp _).2 rfl, by simp, rfl⟩)
  refine ⟨t, ht, fun q hq => ?_⟩
  rw [C80_table (by simp) (by
    intro m hm p h
    simp only [List.mem_cons, List.not_mem_nil, or_false] at hm
    subst hm
    rw [(hp p).1 h]
    intro r hr
    rw [List.eq_of_mem_replicate hr]; simp [logRow]) ht rfl (pseudo := 1) (by norm_num) (by simp) hq]
  norm_num [exampleY, List.range_succ]

example : getPredLogProb exampleTrain ⟨'b', [0, 0, 1, 0]⟩ exampleTest 2 [("b".toList, justNoise 2 1)] .ninf =
    .error .assertion :=
  C80_bool ⟨⟨1, [], rfl, [], rfl, rfl⟩, by norm_num, Or.inl rfl, by simp, by simp, rfl, ninf_lt_fin 0⟩ rfl

example : getPredLogProb exampleTrain ⟨'i', [0, 2, 1, 0]⟩ exampleTest 3 [("a".toList, exampleEst)] .ninf =
    .error .assertion :=
  C81_wrong_shape (before := []) (after := []) (nTest := 2) (m := ("a".toList, exampleEst))
    (p := ⟨2, [logRow [1 / 4, 3 / 4], logRow [0, 1]]⟩)
    ⟨⟨1, [], rfl, [], rfl, rfl⟩, by norm_num, Or.inr rfl, by simp, by simp, rfl, ninf_lt_fin 0⟩ (by simp)
    (by
      refine ⟨_, rfl, Or.inr ⟨by simp, _, rfl, rfl, ?_⟩⟩
      simp [logRow, flog]) (Or.inr (by norm_num))

end Mlp.Props
