import Verif.Lemmas.IeeeVec
import Verif.Props.LossTable

/-!
# Property C127: the curves of binary classification do not overflow or underflow

`binary64` has no smallest and no largest exponent.  Here the functions compute with a rounding that follows IEEE 754, with
gradual underflow, and is arbitrary where the result of an operation overflows.  They return what they return with `binary64`.
-/

set_option linter.unusedSectionVars false

namespace Mlp.Props
open Mlp.Util Mlp.Perf Mlp.PerfR Mlp.Spec Mlp.Lemmas Mlp.Round

section
variable {K : Type} [Field K] [LinearOrder K] [IsStrictOrderedRing K] [FloorRing K] {rnd : K → K} (hi : FollowsIeee rnd)
  {order : List K → SumTree K} (ho : IsOrder order)
include hi

/-! ## Counts -/

omit hi in
theorem assert_of {b : Bool} {u : Unit} (h : pyAssert b = .ok u) : b = true := (pyAssert_eq_ok b).1 h

omit hi in
theorem finPart_mem {l : List (Flt K)} {x : K} (h : x ∈ l.filterMap finPart) : Flt.fin x ∈ l := by
  rw [List.mem_filterMap] at h
  obtain ⟨v, hv, e⟩ := h
  cases v <;> simp [finPart] at e
  exact e ▸ hv

include ho in
theorem countsWeightedR_ieee {y : List Bool} {idx tidx : List Nat} {w : List K} (hidx : idx.length ≤ 2 ^ 53)
    (hw : ∀ v ∈ w, OnGrid 100 60 v ∧ 0 ≤ v) :
    countsWeightedR rnd (sumBy order rnd) y idx tidx w = countsWeightedR binary64 (sumBy order binary64) y idx tidx w ∧
      ∀ c, countsWeightedR binary64 (sumBy order binary64) y idx tidx w = .ok c →
        (∀ v ∈ c.1, OnGrid 100 114 v) ∧ ∀ v ∈ c.2, OnGrid 100 114 v := by
  have main : ∀ weight, takeIdx idx w = .ok weight →
      (cumsumR rnd 0 weight = cumsumR binary64 0 weight ∧ ∀ v ∈ cumsumR binary64 0 weight, OnGrid 100 113 v ∧ 0 ≤ v) ∧
      (cumsumR rnd 0 (List.zipWith (fun (b : Bool) (v : K) => boolNum b * v) y weight) =
        cumsumR binary64 0 (List.zipWith (fun (b : Bool) (v : K) => boolNum b * v) y weight) ∧
        ∀ v ∈ cumsumR binary64 0 (List.zipWith (fun (b : Bool) (v : K) => boolNum b * v) y weight), OnGrid 100 113 v ∧ 0 ≤ v) ∧
      ∀ m : List Bool, sumBy order rnd (mask m weight) = sumBy order binary64 (mask m weight) ∧
        OnGrid 100 113 (sumBy order binary64 (mask m weight)) := by
    intro weight h
    have hlen := takeIdx_length h
    have hmem : ∀ v ∈ weight, OnGrid 100 60 v ∧ 0 ≤ v := fun v hv => hw v (takeIdx_mem h hv)
    refine ⟨?_, ?_, fun m => ?_⟩
    · exact cumsumR_ieee hi (by norm_num) (by norm_num) hmem OnGrid.zero le_rfl (j := 0) (by simp) (by omega)
    · refine cumsumR_ieee hi (by norm_num) (by norm_num) (fun v hv => ?_) OnGrid.zero le_rfl (j := 0) (by simp)
        (by rw [List.length_zipWith]; omega)
      obtain ⟨b, -, a, ha, rfl⟩ := mem_zipWith_of hv
      cases b
      · simp only [boolNum, Bool.false_eq_true, if_false, zero_mul]
        exact ⟨OnGrid.zero, le_rfl⟩
      · simp only [boolNum, if_true, one_mul]
        exact hmem a ha
    · exact sumBy_ieee hi (by norm_num) (by norm_num) ho (fun v hv => (hmem v (mask_mem_of hv)).1)
        (le_trans (mask_length_le_of m weight) (by omega))
  constructor
  · unfold countsWeightedR
    refine bind_congr_eq rfl fun weight hwt => ?_
    obtain ⟨⟨c1, c2⟩, ⟨t1, t2⟩, s⟩ := main weight hwt
    rw [c1, t1]
    refine bind_congr_eq rfl fun tps htps => bind_congr_eq rfl fun cw hcw => ?_
    have ht : ∀ v ∈ tps, OnGrid 100 113 v ∧ 0 ≤ v := fun v hv => t2 v (takeIdx_mem htps hv)
    have hc : ∀ v ∈ cw, OnGrid 100 113 v ∧ 0 ≤ v := fun v hv => c2 v (takeIdx_mem hcw hv)
    have hf : List.zipWith (fun (c t : K) => rnd (c - t)) cw tps = List.zipWith (fun (c t : K) => binary64 (c - t)) cw tps :=
      zipWith_congr_mem fun a ha b hb => rnd_dyadic hi ((hc a ha).1.sub (ht b hb).1) (by norm_num) (by norm_num)
    simp only [hf]
    have hl : ∀ (l : List K), (∀ v ∈ l, OnGrid 100 114 v) → OnGrid 100 114 (l.getLastD 0) := by
      intro l h
      rcases List.eq_nil_or_concat l with rfl | ⟨l', a, rfl⟩
      · exact OnGrid.zero
      · rw [List.concat_eq_append] at *
        have : (l' ++ [a]).getLastD 0 = a := by simp [List.getLastD_eq_getLast?]
        rw [this]
        exact h a (by simp)
    have hfg : ∀ v ∈ List.zipWith (fun (c t : K) => binary64 (c - t)) cw tps, OnGrid 100 114 v := by
      intro v hv
      obtain ⟨a, ha, b, hb, rfl⟩ := mem_zipWith_of hv
      exact ((hc a ha).1.sub (ht b hb).1).rnd
    refine assert_congr ?_ fun _ => assert_congr ?_ fun _ => rfl
    · rw [(s _).1]
      exact allcloseR_ieee hi (hl _ hfg) ((s _).2.mono le_rfl (by norm_num)) (by norm_num) (by norm_num)
    · rw [(s _).1]
      exact allcloseR_ieee hi (hl _ fun v hv => (ht v hv).1.mono le_rfl (by norm_num)) ((s _).2.mono le_rfl (by norm_num))
        (by norm_num) (by norm_num)
  · intro c hc
    unfold countsWeightedR at hc
    simp only [bind_ok_iff, pure_eq_ok, pyAssert_eq_ok] at hc
    obtain ⟨weight, hwt, tps, htps, cw, hcw, -, -, -, -, hc⟩ := hc
    simp only [Except.ok.injEq] at hc
    subst hc
    obtain ⟨⟨c1, c2⟩, ⟨t1, t2⟩, s⟩ := main weight hwt
    refine ⟨fun v hv => ?_, fun v hv => (t2 v (takeIdx_mem htps hv)).1.mono le_rfl (by norm_num)⟩
    obtain ⟨a, ha, b, hb, rfl⟩ := mem_zipWith_of hv
    exact ((c2 a (takeIdx_mem hcw ha)).1.sub (t2 b (takeIdx_mem htps hb)).1).rnd

omit hi in
theorem nat_onGrid {n e : Nat} (h : n ≤ 2 ^ e) : OnGrid 0 e (n : K) :=
  ⟨⟨n, by simp⟩, by rw [abs_of_nonneg (by positivity)]; exact_mod_cast h⟩

omit hi in
theorem cumsumFrom_nat (y : List Bool) (a : Nat) : ∀ v ∈ cumsumFrom (a : K) (y.map boolNum), ∃ n : Nat, v = n ∧ n ≤ a + y.length := by
  induction y generalizing a with
  | nil => simp [cumsumFrom]
  | cons b y ih =>
    intro v hv
    have hb : (a : K) + boolNum b = ((a + (if b then 1 else 0) : Nat) : K) := by cases b <;> simp [boolNum]
    simp only [List.map_cons, cumsumFrom, List.mem_cons] at hv
    rw [hb] at hv
    rcases hv with rfl | hv
    · exact ⟨_, rfl, by cases b <;> simp⟩
    · obtain ⟨n, rfl, hn⟩ := ih _ v hv
      refine ⟨n, rfl, hn.trans ?_⟩
      cases b <;> simp <;> omega

omit hi in
theorem countsPlain_onGrid {y : List Bool} {tidx : List Nat} {c : List K × List K} (hy : y.length ≤ 2 ^ 53)
    (ht : ∀ i ∈ tidx, i < 2 ^ 53) (h : countsPlain y tidx = .ok c) :
    (∀ v ∈ c.1, OnGrid 100 114 v) ∧ ∀ v ∈ c.2, OnGrid 100 114 v := by
  unfold countsPlain at h
  simp only [bind_ok_iff, pure_eq_ok, pyAssert_eq_ok] at h
  obtain ⟨tps, htps, -, -, h⟩ := h
  simp only [Except.ok.injEq] at h
  subst h
  have hn : ∀ v ∈ tps, OnGrid 0 53 v := by
    intro v hv
    have := cumsumFrom_nat (K := K) y 0 v (by simpa using takeIdx_mem htps hv)
    obtain ⟨n, rfl, hn⟩ := this
    exact nat_onGrid (by omega)
  refine ⟨fun v hv => ?_, fun v hv => (hn v hv).mono (by norm_num) (by norm_num)⟩
  obtain ⟨i, hti, b, hb, rfl⟩ := mem_zipWith_of hv
  have hi1 : OnGrid 0 53 (1 + (i : K)) := by
    have := nat_onGrid (K := K) (n := 1 + i) (e := 53) (by have := ht i hti; omega)
    simpa using this
  exact (hi1.sub (hn b hb)).mono (by norm_num) (by norm_num)

include ho in
theorem countsOfR_ieee {y : List Bool} {idx tidx : List Nat} {W : Option (Mat K)} (hidx : idx.length ≤ 2 ^ 53)
    (hy : y.length ≤ 2 ^ 53) (ht : ∀ i ∈ tidx, i < 2 ^ 53)
    (hw : ∀ m, W = some m → ∀ r ∈ m.rows, ∀ x, Flt.fin x ∈ r → OnGrid 100 60 x) :
    countsOfR rnd (sumBy order rnd) y idx tidx W = countsOfR binary64 (sumBy order binary64) y idx tidx W ∧
      ∀ cs, countsOfR binary64 (sumBy order binary64) y idx tidx W = .ok cs → ∀ c ∈ cs,
        (∀ v ∈ c.1, OnGrid 100 114 v) ∧ ∀ v ∈ c.2, OnGrid 100 114 v := by
  cases W with
  | none =>
    refine ⟨rfl, fun cs h => ?_⟩
    unfold countsOfR at h
    simp only [bind_ok_iff, pure_eq_ok, Except.ok.injEq] at h
    obtain ⟨c, hc, rfl⟩ := h
    intro c' hc'
    rw [List.mem_singleton] at hc'
    subst hc'
    exact countsPlain_onGrid hy ht hc
  | some m =>
    have hrow : ∀ r ∈ m.rows, (m.rows.all fun r => r.all fun v => (Flt.fin 0).lt v) = true →
        ∀ v ∈ r.filterMap finPart, OnGrid 100 60 v ∧ 0 ≤ v := by
      intro r hr h v hv
      have hv' := finPart_mem hv
      refine ⟨hw m rfl r hr v hv', ?_⟩
      rw [List.all_eq_true] at h
      have h1 := h r hr
      rw [List.all_eq_true] at h1
      have h2 := h1 _ hv'
      simp only [Flt.lt, Flt.isNaN, Bool.not_false, Bool.true_and, decide_eq_true_eq, Flt.fin_lt_fin] at h2
      exact h2.le
    constructor
    · unfold countsOfR
      refine assert_congr rfl fun _ => assert_congr rfl fun _ => assert_congr rfl fun _ => assert_congr rfl fun h => ?_
      exact mapM_congr _ _ _ fun r hr => (countsWeightedR_ieee hi ho hidx (hrow r hr h)).1
    · intro cs h c hc
      unfold countsOfR at h
      simp only [assert_bind_ok] at h
      obtain ⟨-, -, -, hpos, h⟩ := h
      obtain ⟨r, hr, e⟩ := mapM_mem_of h hc
      exact (countsWeightedR_ieee hi ho hidx (hrow r hr hpos)).2 c e

omit hi in
theorem countsOfR_length {rnd : K → K} {sumR : List K → K} {y : List Bool} {idx tidx : List Nat} {W : Option (Mat K)}
    {cs : List (List K × List K)} (h : countsOfR rnd sumR y idx tidx W = .ok cs) {c : List K × List K} (hc : c ∈ cs) :
    c.1.length ≤ tidx.length ∧ c.2.length ≤ tidx.length := by
  cases W with
  | none =>
    unfold countsOfR countsPlain at h
    simp only [bind_ok_iff, pure_eq_ok, Except.ok.injEq] at h
    obtain ⟨c', ⟨tps, htps, -, -, rfl⟩, rfl⟩ := h
    rw [List.mem_singleton] at hc
    subst hc
    exact ⟨by rw [List.length_zipWith]; omega, (takeIdx_length htps).le⟩
  | some m =>
    unfold countsOfR at h
    simp only [assert_bind_ok] at h
    obtain ⟨-, -, -, -, h⟩ := h
    obtain ⟨r, -, e⟩ := mapM_mem_of h hc
    unfold countsWeightedR at e
    simp only [bind_ok_iff, pure_eq_ok, Except.ok.injEq] at e
    obtain ⟨w, -, tps, htps, cw, hcw, -, -, -, -, rfl⟩ := e
    exact ⟨by rw [List.length_zipWith, takeIdx_length hcw]; omega, (takeIdx_length htps).le⟩

/-! ## Pseudo points -/

omit hi in
theorem pseudoRowR_length {f t : List K} {n : Nat} (hf : f.length ≤ n) (ht : t.length ≤ n) :
    (pseudoRowR binary64 f t).1.length ≤ n ∧ (pseudoRowR binary64 f t).2.length ≤ n := by
  unfold pseudoRowR
  simp only
  constructor <;> split_ifs <;> simp [hf, ht]

theorem pseudoRowR_ieee {f t : List K} (hf : ∀ v ∈ f, OnGrid 100 114 v) (ht : ∀ v ∈ t, OnGrid 100 114 v) :
    pseudoRowR rnd f t = pseudoRowR binary64 f t ∧ (∀ v ∈ (pseudoRowR binary64 f t).1, OnGrid 272 114 v) ∧
      ∀ v ∈ (pseudoRowR binary64 f t).2, OnGrid 272 114 v := by
  obtain ⟨-, d, -⟩ := epsilon_dyadic (K := K)
  have e1 : (t.map fun (t : K) => rnd (epsilonR rnd * t)) = t.map fun (t : K) => binary64 (epsilonR binary64 * t) := by
    rw [epsilonR_ieee hi]
    exact List.map_congr_left fun v hv => rnd_dyadic hi (d.mul (ht v hv)) (by norm_num) (by norm_num)
  have d1 : ∀ v ∈ t.map fun (t : K) => binary64 (epsilonR binary64 * t), OnGrid 186 114 v := by
    intro v hv
    obtain ⟨a, ha, rfl⟩ := List.mem_map.1 hv
    exact ((d.mul (ht a ha)).mono (by norm_num) (by norm_num)).rnd
  have key : ∀ f' : List K, (∀ v ∈ f', OnGrid 186 114 v) →
      (f'.map fun (f : K) => rnd (epsilonR rnd * f)) = f'.map (fun (f : K) => binary64 (epsilonR binary64 * f)) ∧
        ∀ v ∈ f'.map (fun (f : K) => binary64 (epsilonR binary64 * f)), OnGrid 272 114 v := by
    intro f' h'
    constructor
    · rw [epsilonR_ieee hi]
      exact List.map_congr_left fun v hv => rnd_dyadic hi (d.mul (h' v hv)) (by norm_num) (by norm_num)
    · intro v hv
      obtain ⟨a, ha, rfl⟩ := List.mem_map.1 hv
      exact ((d.mul (h' a ha)).mono (by norm_num) (by norm_num)).rnd
  have hf' : ∀ v ∈ (if decide (f.getLastD 0 = 0) = true then t.map fun (t : K) => binary64 (epsilonR binary64 * t) else f),
      OnGrid 186 114 v := by
    split_ifs
    · exact d1
    · exact fun v hv => (hf v hv).mono (by norm_num) le_rfl
  unfold pseudoRowR
  simp only [e1]
  refine ⟨?_, fun v hv => (hf' v hv).mono (by norm_num) le_rfl, ?_⟩
  · rw [(key _ hf').1]
  · intro v hv
    split_ifs at hv with h1 h2 h3
    · exact (key _ d1).2 v hv
    · exact (key _ fun v hv => (hf v hv).mono (by norm_num) le_rfl).2 v hv
    · exact (ht v hv).mono (by norm_num) le_rfl

/-- What is known of a row of counts: it is on the grid, rises and is not negative. -/
structure GridRow (r : List K) : Prop where
  grid : ∀ v ∈ r, OnGrid 272 114 v
  mono : r.Pairwise (· ≤ ·)
  nonneg : ∀ v ∈ r, 0 ≤ v

omit hi in
theorem pairwise_of_diffR {r : List K} (h : ((diffR binary64 r).all fun d => decide (0 ≤ d)) = true) : r.Pairwise (· ≤ ·) := by
  have hb := binary64_floatRounding (K := K)
  refine List.IsChain.pairwise ?_
  rw [List.all_eq_true] at h
  induction r with
  | nil => exact .nil
  | cons a r ih =>
    cases r with
    | nil => exact .singleton a
    | cons b r =>
      rw [List.isChain_cons_cons]
      refine ⟨?_, ih fun x hx => h x ?_⟩
      · have h1 := h (binary64 (b - a)) (by simp [diffR])
        rw [decide_eq_true_eq] at h1
        by_contra hc
        have h2 := hb.pos (a - b) (by linarith [not_le.1 hc])
        rw [← neg_sub, hb.neg] at h2
        linarith
      · unfold diffR at hx ⊢
        simp only [List.tail_cons, List.zipWith_cons_cons] at hx ⊢
        exact List.mem_cons_of_mem _ hx

omit hi in
theorem nonneg_of_head {r : List K} (h : r.Pairwise (· ≤ ·)) (h0 : r.head? = some 0) : ∀ v ∈ r, 0 ≤ v := by
  cases r with
  | nil => simp
  | cons a r =>
    simp only [List.head?_cons, Option.some.injEq] at h0
    subst h0
    intro v hv
    rcases List.mem_cons.1 hv with rfl | hv
    · exact le_rfl
    · exact (List.pairwise_cons.1 h).1 v hv

omit hi in
theorem pseudoRowR_head {f t : List K} : (pseudoRowR binary64 (0 :: f) (0 :: t)).1.head? = some 0 ∧
    (pseudoRowR binary64 (0 :: f) (0 :: t)).2.head? = some 0 := by
  have hb := binary64_floatRounding (K := K)
  unfold pseudoRowR
  simp only
  constructor <;> split_ifs <;> simp [hb.zero]

include ho in
/-- `_binary_clf_curve`: the same result, whose rows are on the grid. -/
theorem clf_ieee {y : List Bool} {s : List (Flt K)} {W : Option (Mat K)} (h : CurveRange y s W) :
    binaryClfCurveR rnd (sumBy order rnd) y s W = binaryClfCurveR binary64 (sumBy order binary64) y s W ∧
      ∀ f t thr, binaryClfCurveR binary64 (sumBy order binary64) y s W = .ok (f, t, thr) →
        (∀ r ∈ f, GridRow r ∧ r.length ≤ 2 ^ 53 + 1) ∧ (∀ r ∈ t, GridRow r ∧ r.length ≤ 2 ^ 53 + 1) := by
  obtain ⟨hsz, hsc, hwt⟩ := h
  -- facts about the order and the thresholds
  have hidx : s.length = y.length → ((argsortStable (s.filterMap finPart)).reverse).length ≤ 2 ^ 53 := by
    intro hl
    have h1 : ((argsortStable (s.filterMap finPart)).reverse).length = (s.filterMap finPart).length := by
      simp [argsortStable]
    have h2 := List.length_filterMap_le finPart s
    omega
  have htidx : ∀ ss : List K, 1 ≤ y.length → ss.length ≤ y.length →
      (∀ i ∈ whereNonzero (diffR binary64 ss) ++ [y.length - 1], i < 2 ^ 53) ∧
      (whereNonzero (diffR binary64 ss) ++ [y.length - 1]).length ≤ 2 ^ 53 := by
    intro ss h1 hss
    have hd : (diffR binary64 ss).length = ss.length - 1 := by simp [diffR]
    constructor
    · intro i hi'
      rcases List.mem_append.1 hi' with h | h
      · unfold whereNonzero at h
        have := List.mem_range.1 (List.mem_of_mem_filter h)
        omega
      · rw [List.mem_singleton] at h
        omega
    · rw [List.length_append, List.length_singleton]
      have h3 : (whereNonzero (diffR binary64 ss)).length ≤ (diffR binary64 ss).length := by
        unfold whereNonzero
        refine (List.length_filter_le _ _).trans ?_
        simp
      omega
  have hscore : ∀ ss, takeIdx (argsortStable (s.filterMap finPart)).reverse (s.filterMap finPart) = .ok ss →
      ∀ v ∈ ss, OnGrid 1074 1022 v := fun ss h v hv => hsc v (finPart_mem (takeIdx_mem h hv))
  have hssl : s.length = y.length → ∀ ss, takeIdx (argsortStable (s.filterMap finPart)).reverse (s.filterMap finPart) = .ok ss →
      ss.length ≤ y.length := by
    intro hl ss h
    have h1 := takeIdx_length h
    have h2 : ((argsortStable (s.filterMap finPart)).reverse).length = (s.filterMap finPart).length := by
      simp [argsortStable]
    have h3 := List.length_filterMap_le finPart s
    omega
  have hyl : ∀ y' : List Bool, takeIdx (argsortStable (s.filterMap finPart)).reverse y = .ok y' → s.length = y.length →
      y'.length ≤ 2 ^ 53 := by
    intro y' h hl
    rw [takeIdx_length h]
    exact hidx hl
  -- facts about the rows
  have hrows : ∀ (cs : List (List K × List K)), (∀ c ∈ cs, (∀ v ∈ c.1, OnGrid 100 114 v) ∧ ∀ v ∈ c.2, OnGrid 100 114 v) →
      List.zipWith (pseudoRowR rnd) (cs.map fun c => 0 :: c.1) (cs.map fun c => 0 :: c.2) =
        List.zipWith (pseudoRowR binary64) (cs.map fun c => 0 :: c.1) (cs.map fun c => 0 :: c.2) ∧
      ∀ p ∈ List.zipWith (pseudoRowR binary64) (cs.map fun c => 0 :: c.1) (cs.map fun c => 0 :: c.2),
        (∀ v ∈ p.1, OnGrid 272 114 v) ∧ (∀ v ∈ p.2, OnGrid 272 114 v) ∧ p.1.head? = some 0 ∧ p.2.head? = some 0 := by
    intro cs hcs
    have h1 : ∀ c ∈ cs, (∀ v ∈ 0 :: c.1, OnGrid 100 114 v) ∧ ∀ v ∈ 0 :: c.2, OnGrid 100 114 v := by
      intro c hc
      constructor
      · intro v hv
        rcases List.mem_cons.1 hv with rfl | hv
        · exact OnGrid.zero
        · exact (hcs c hc).1 v hv
      · intro v hv
        rcases List.mem_cons.1 hv with rfl | hv
        · exact OnGrid.zero
        · exact (hcs c hc).2 v hv
    constructor
    · refine zipWith_congr_mem fun a ha b hb => ?_
      obtain ⟨c, hc, rfl⟩ := List.mem_map.1 ha
      obtain ⟨c', hc', rfl⟩ := List.mem_map.1 hb
      exact (pseudoRowR_ieee hi (h1 c hc).1 (h1 c' hc').2).1
    · intro p hp
      obtain ⟨a, ha, b, hb, rfl⟩ := mem_zipWith_of hp
      obtain ⟨c, hc, rfl⟩ := List.mem_map.1 ha
      obtain ⟨c', hc', rfl⟩ := List.mem_map.1 hb
      have h2 := pseudoRowR_ieee hi (h1 c hc).1 (h1 c' hc').2
      exact ⟨h2.2.1, h2.2.2, pseudoRowR_head.1, pseudoRowR_head.2⟩
  constructor
  · unfold binaryClfCurveR
    refine assert_congr rfl fun ha => assert_congr rfl fun h1 => ?_
    simp only [Bool.and_eq_true, decide_eq_true_eq] at ha h1
    refine bind_congr_eq rfl fun ss hss => bind_congr_eq rfl fun y' hy' => ?_
    rw [diffR_ieee hi (hscore ss hss) (by norm_num) (by norm_num)]
    have hc := countsOfR_ieee hi ho (y := y') (W := W) (hidx ha.1) (hyl y' hy' ha.1) (htidx ss h1 (hssl ha.1 ss hss)).1 hwt
    refine bind_congr_eq hc.1 fun cs hcs => ?_
    have hcg := hc.2 cs hcs
    obtain ⟨r1, r2⟩ := hrows cs hcg
    refine bind_congr_eq rfl fun st hst => assert_congr rfl fun _ => ?_
    refine bind_congr_eq ?_ fun p hp => ?_
    · unfold addPseudoPointsR
      rw [r1]
    · unfold addPseudoPointsR at hp
      simp only [assert_bind_ok, pure_eq_ok, Except.ok.injEq] at hp
      obtain ⟨-, -, rfl⟩ := hp
      refine assert_congr rfl fun _ => ?_
      refine assert_congr ?_ fun _ => rfl
      congr 1
      · rw [Bool.eq_iff_iff, List.all_eq_true, List.all_eq_true]
        refine forall₂_congr fun r hr => ?_
        obtain ⟨r0, hr0, rfl⟩ := List.mem_map.1 hr
        obtain ⟨q, hq, rfl⟩ := List.mem_map.1 hr0
        rw [diffR_ieee hi (cummax_facts _ (r2 q hq).1).1 (by norm_num) (by norm_num)]
      · rw [Bool.eq_iff_iff, List.all_eq_true, List.all_eq_true]
        refine forall₂_congr fun r hr => ?_
        obtain ⟨q, hq, rfl⟩ := List.mem_map.1 hr
        rw [diffR_ieee hi (r2 q hq).2.1 (by norm_num) (by norm_num)]
  · intro f t thr hc
    unfold binaryClfCurveR at hc
    simp only [bind_ok_iff] at hc
    obtain ⟨_, ha, _, h1, ss, hss, y', hy', cs, hcs, st, -, _, -, p, hp, _, -, _, hd, hc⟩ := hc
    replace ha := assert_of ha
    replace h1 := assert_of h1
    replace hd := assert_of hd
    simp only [Bool.and_eq_true, decide_eq_true_eq] at ha h1
    simp only [pure_eq_ok, Except.ok.injEq, Prod.mk.injEq] at hc
    obtain ⟨rfl, rfl, rfl⟩ := hc
    have ht := htidx ss h1 (hssl ha.1 ss hss)
    have hcg := (countsOfR_ieee hi ho (y := y') (W := W) (hidx ha.1) (hyl y' hy' ha.1) ht.1 hwt).2 cs hcs
    have hlen : ∀ c ∈ cs, c.1.length ≤ 2 ^ 53 ∧ c.2.length ≤ 2 ^ 53 := fun c hc =>
      ⟨(countsOfR_length hcs hc).1.trans ht.2, (countsOfR_length hcs hc).2.trans ht.2⟩
    obtain ⟨-, r2⟩ := hrows cs hcg
    unfold addPseudoPointsR at hp
    simp only [assert_bind_ok, pure_eq_ok, Except.ok.injEq] at hp
    obtain ⟨-, -, rfl⟩ := hp
    have hpl : ∀ p ∈ List.zipWith (pseudoRowR binary64) (cs.map fun c => 0 :: c.1) (cs.map fun c => 0 :: c.2),
        p.1.length ≤ 2 ^ 53 + 1 ∧ p.2.length ≤ 2 ^ 53 + 1 := by
      intro p hp
      obtain ⟨a, ha, b, hb, rfl⟩ := mem_zipWith_of hp
      obtain ⟨c, hc, rfl⟩ := List.mem_map.1 ha
      obtain ⟨c', hc', rfl⟩ := List.mem_map.1 hb
      refine pseudoRowR_length ?_ ?_
      · rw [List.length_cons]; have := (hlen c hc).1; omega
      · rw [List.length_cons]; have := (hlen c' hc').2; omega
    rw [Bool.and_eq_true, List.all_eq_true, List.all_eq_true] at hd
    constructor
    · intro r hr
      have hm := pairwise_of_diffR (hd.1 r hr)
      obtain ⟨r0, hr0, rfl⟩ := List.mem_map.1 hr
      obtain ⟨q, hq, rfl⟩ := List.mem_map.1 hr0
      obtain ⟨c1, -, c3, -, c5⟩ := cummax_facts _ (r2 q hq).1
      exact ⟨⟨c1, hm, nonneg_of_head hm (c5.trans (r2 q hq).2.2.1)⟩, c3.le.trans (hpl q hq).1⟩
    · intro r hr
      have hm := pairwise_of_diffR (hd.2 r hr)
      obtain ⟨q, hq, rfl⟩ := List.mem_map.1 hr
      exact ⟨⟨(r2 q hq).2.1, hm, nonneg_of_head hm (r2 q hq).2.2.2⟩, (hpl q hq).2⟩

/-! ## The curves -/

theorem overLastR_ieee {r : List K} (h : GridRow r) : overLastR rnd r = overLastR binary64 r ∧
    ∀ v ∈ overLastR binary64 r, GridFlt 438 0 v := by
  have hl : OnGrid 272 114 (r.getLastD 0) := by
    by_cases hr : r = []
    · subst hr; exact OnGrid.zero
    · exact h.grid _ (getLastD_mem' hr)
  unfold overLastR
  constructor
  · refine List.map_congr_left fun v hv => ?_
    by_cases h0 : r.getLastD 0 = 0
    · rw [h0]
      simp only [Flt.div, if_true, Flt.signInf]
      split_ifs <;> rfl
    · rw [Flt.div_fin h0]
      exact congrArg Flt.fin (hi.eq ((h.grid v hv).div_inRange hl h0 (by norm_num) (by norm_num)))
  · intro v hv
    obtain ⟨a, ha, rfl⟩ := List.mem_map.1 hv
    intro x hx
    by_cases h0 : r.getLastD 0 = 0
    · rw [h0] at hx
      simp only [Flt.div, if_true, Flt.signInf] at hx
      split_ifs at hx <;> simp [rF] at hx
    · rw [Flt.div_fin h0] at hx
      simp only [rF, Flt.fin.injEq] at hx
      subst hx
      have hpos : 0 < r.getLastD 0 := lt_of_le_of_ne (h.nonneg _ (getLastD_mem' (List.ne_nil_of_mem ha))) (Ne.symm h0)
      have hb := binary64_floatRounding (K := K)
      refine ((h.grid a ha).div_rnd hl h0).mono (k' := 438) (e' := 386) (by norm_num) (by norm_num) |>.bound ?_
      rw [abs_of_nonneg (hb.nonneg (div_nonneg (h.nonneg a ha) hpos.le)), pow_zero]
      exact hb.le_one ((div_le_one hpos).2 (le_last h.mono ha))

/-- What is known of a curve: the floats are on a grid and the rows are not too long. -/
structure GridCurve (kx ex ky ey : Nat) (c : Curve K) : Prop where
  x : ∀ r ∈ c.x.rows, (∀ v ∈ r, GridFlt kx ex v) ∧ r.length ≤ 2 ^ 53 + 1
  y : ∀ r ∈ c.y.rows, (∀ v ∈ r, GridFlt ky ey v) ∧ r.length ≤ 2 ^ 53 + 1

include ho in
/-- **C127, ROC curve.** -/
theorem roc_ieee {y : List Bool} {s : List (Flt K)} {W : Option (Mat K)} (h : CurveRange y s W) :
    rocCurveR rnd (sumBy order rnd) y s W = rocCurveR binary64 (sumBy order binary64) y s W ∧
      ∀ c thr, rocCurveR binary64 (sumBy order binary64) y s W = .ok (c, thr) → GridCurve 438 0 438 0 c := by
  obtain ⟨h1, h2⟩ := clf_ieee hi ho h
  unfold rocCurveR
  constructor
  · refine bind_congr_eq h1 fun ⟨f, t, thr⟩ hf => ?_
    obtain ⟨g1, g2⟩ := h2 f t thr hf
    have e1 : f.map (overLastR rnd) = f.map (overLastR binary64) :=
      List.map_congr_left fun r hr => (overLastR_ieee hi (g1 r hr).1).1
    have e2 : t.map (overLastR rnd) = t.map (overLastR binary64) :=
      List.map_congr_left fun r hr => (overLastR_ieee hi (g2 r hr).1).1
    simp only [e1, e2]
  · intro c thr hc
    simp only [bind_ok_iff, pure_eq_ok, Except.ok.injEq, Prod.mk.injEq] at hc
    obtain ⟨⟨f, t, thr'⟩, hf, rfl, -⟩ := hc
    obtain ⟨g1, g2⟩ := h2 f t thr' hf
    constructor
    · intro r hr
      obtain ⟨q, hq, rfl⟩ := List.mem_map.1 hr
      exact ⟨(overLastR_ieee hi (g1 q hq).1).2, by simpa [overLastR] using (g1 q hq).2⟩
    · intro r hr
      obtain ⟨q, hq, rfl⟩ := List.mem_map.1 hr
      exact ⟨(overLastR_ieee hi (g2 q hq).1).2, by simpa [overLastR] using (g2 q hq).2⟩

omit hi in
theorem copySecond_mem {r r' : List (Flt K)} (h : copySecond r = .ok r') : (∀ v ∈ r', v ∈ r) ∧ r'.length = r.length := by
  match r, h with
  | a :: b :: l, h =>
    simp only [copySecond, Except.ok.injEq] at h
    subst h
    exact ⟨fun v hv => by simp at hv ⊢; tauto, rfl⟩

omit hi in
theorem last_onGrid {r : List K} (h : GridRow r) : OnGrid 272 114 (r.getLastD 0) := by
  by_cases hr : r = []
  · subst hr; exact OnGrid.zero
  · exact h.grid _ (getLastD_mem' hr)

theorem precisionRowR_ieee {f t : List K} (hf : GridRow f) (ht : GridRow t) :
    precisionRowR rnd f t = precisionRowR binary64 f t ∧ ∀ v ∈ precisionRowR binary64 f t, GridFlt 439 386 v := by
  have key : ∀ a ∈ f, ∀ b ∈ t, rF rnd ((Flt.fin b).div (.fin (rnd (b + a)))) = rF binary64 ((Flt.fin b).div (.fin (binary64 (b + a)))) ∧
      GridFlt 439 386 (rF binary64 ((Flt.fin b).div (.fin (binary64 (b + a))))) := by
    intro a ha b hb
    have hs := (ht.grid b hb).add (hf.grid a ha)
    rw [rnd_dyadic hi hs (by norm_num) (by norm_num)]
    exact rF_div_ieee hi (GridFlt.fin (ht.grid b hb)) (GridFlt.fin hs.rnd) (by norm_num) (by norm_num)
  unfold precisionRowR
  constructor
  · exact zipWith_congr_mem fun a ha b hb => (key a ha b hb).1
  · intro v hv
    obtain ⟨a, ha, b, hb, rfl⟩ := mem_zipWith_of hv
    exact (key a ha b hb).2

omit hi in
theorem abs_le_one_of {v : Flt K} {x : K} (h0 : (Flt.fin 0).le v = true) (h1 : v.le (.fin 1) = true) (hv : v = .fin x) :
    |x| ≤ 2 ^ 0 := by
  subst hv
  simp only [Flt.le, Flt.isNaN, Bool.not_false, Bool.true_and, decide_eq_true_eq, Flt.fin_le_fin] at h0 h1
  rw [abs_of_nonneg h0, pow_zero]
  exact h1

include ho in
/-- **C127, recall-precision curve.** -/
theorem rp_ieee {y : List Bool} {s : List (Flt K)} {W : Option (Mat K)} (h : CurveRange y s W) :
    recallPrecisionCurveR rnd (sumBy order rnd) y s W = recallPrecisionCurveR binary64 (sumBy order binary64) y s W ∧
      ∀ c thr, recallPrecisionCurveR binary64 (sumBy order binary64) y s W = .ok (c, thr) → GridCurve 438 0 439 0 c := by
  obtain ⟨h1, h2⟩ := clf_ieee hi ho h
  unfold recallPrecisionCurveR
  constructor
  · refine bind_congr_eq h1 fun ⟨f, t, thr⟩ hf => ?_
    obtain ⟨g1, g2⟩ := h2 f t thr hf
    have e2 : t.map (overLastR rnd) = t.map (overLastR binary64) :=
      List.map_congr_left fun r hr => (overLastR_ieee hi (g2 r hr).1).1
    have e3 : List.zipWith (precisionRowR rnd) f t = List.zipWith (precisionRowR binary64) f t :=
      zipWith_congr_mem fun a ha b hb => (precisionRowR_ieee hi (g1 a ha).1 (g2 b hb).1).1
    simp only [e2, e3]
  · intro c thr hc
    simp only [bind_ok_iff] at hc
    obtain ⟨⟨f, t, thr'⟩, hf, prec, hprec, _, ha, hc⟩ := hc
    replace ha := assert_of ha
    simp only [pure_eq_ok, Except.ok.injEq, Prod.mk.injEq] at hc
    obtain ⟨rfl, -⟩ := hc
    obtain ⟨g1, g2⟩ := h2 f t thr' hf
    rw [Bool.and_eq_true, List.all_eq_true, List.all_eq_true] at ha
    constructor
    · intro r hr
      obtain ⟨q, hq, rfl⟩ := List.mem_map.1 hr
      exact ⟨(overLastR_ieee hi (g2 q hq).1).2, by simpa [overLastR] using (g2 q hq).2⟩
    · intro r hr
      obtain ⟨r0, hr0, hcs⟩ := mapM_mem_of hprec hr
      obtain ⟨a, hfa, b, hb, rfl⟩ := mem_zipWith_of hr0
      obtain ⟨m1, m2⟩ := copySecond_mem hcs
      have p1 := (precisionRowR_ieee hi (g1 a hfa).1 (g2 b hb).1).2
      refine ⟨fun v hv x hx => (p1 v (m1 v hv) x hx).bound ?_, ?_⟩
      · exact abs_le_one_of (List.all_eq_true.1 (ha.1 r hr) v hv) (List.all_eq_true.1 (ha.2 r hr) v hv) hx
      · rw [m2]
        unfold precisionRowR
        rw [List.length_zipWith]
        have := (g2 b hb).2
        omega

/-! ## Gains -/

theorem gainR_ieee {N P z t : K} (hN : OnGrid 272 114 N) (hP : OnGrid 272 114 P) (hz : OnGrid 272 115 z) (ht : OnGrid 272 114 t) :
    gainR rnd N P z t = gainR binary64 N P z t ∧ GridFlt 824 774 (gainR binary64 N P z t) ∧
      ∀ x, gainR binary64 N P z t = .fin x → ∃ q, binary64 q = q ∧ x = binary64 (1 - q) := by
  have d1 := hP.mul hz
  have d2 := hN.mul ht
  unfold gainR
  rw [rnd_dyadic hi d1 (by norm_num) (by norm_num), rnd_dyadic hi d2 (by norm_num) (by norm_num)]
  obtain ⟨e1, g1⟩ := rF_div_ieee hi (GridFlt.fin d1.rnd) (GridFlt.fin d2.rnd) (by norm_num) (by norm_num)
  rw [e1]
  have g2 : GridFlt 824 774 ((Flt.fin 1).sub (rF binary64 ((Flt.fin (binary64 (P * z))).div (.fin (binary64 (N * t)))))) :=
    (GridFlt.fin (OnGrid.one (k := 824) (e := 773))).sub (g1.mono (by norm_num) (by norm_num))
  obtain ⟨e2, g3⟩ := rF_ieee hi g2 (by norm_num) (by norm_num)
  refine ⟨e2, g3, fun x hx => ?_⟩
  generalize (Flt.fin (binary64 (P * z))).div (.fin (binary64 (N * t))) = w at hx
  cases w with
  | fin q =>
    refine ⟨binary64 q, binary64_floatRounding.idem q, ?_⟩
    simp only [rF, Flt.sub_fin, Flt.fin.injEq] at hx
    exact hx.symm
  | pinf => simp [rF, Flt.sub, Flt.neg, Flt.add] at hx
  | ninf => simp [rF, Flt.sub, Flt.neg, Flt.add] at hx
  | nan => simp [rF, Flt.sub, Flt.neg, Flt.add] at hx

omit hi in
/-- `1 - q` for a double `q` is a multiple of `2 ^ -53`, unless it is negative. -/
theorem one_sub_grid {q : K} (hq : binary64 q = q) : binary64 (1 - q) ≤ 0 ∨ ∃ m : Int, binary64 (1 - q) * 2 ^ 53 = m := by
  have hb := binary64_floatRounding (K := K)
  rcases le_total 1 q with h1 | h1
  · left
    rw [← hb.zero]
    exact hb.mono (by linarith)
  · right
    rcases le_total (1 / 2) q with h2 | h2
    · have h3 : OnGrid 53 0 q := by
        have := dyadic_rnd_of_ge (x := q) (j := 1) (e := 0) (by rw [abs_of_nonneg (by linarith)]; norm_num; linarith)
          (by rw [abs_of_nonneg (by linarith)]; simpa using h1)
        rwa [hq] at this
      exact (OnGrid.one.sub h3).rnd.1
    · rcases le_total (-1) q with h4 | h4
      · exact (dyadic_rnd_of_ge (x := 1 - q) (j := 1) (e := 1) (by rw [abs_of_nonneg (by linarith)]; norm_num; linarith)
          (by rw [abs_of_nonneg (by linarith)]; norm_num; linarith)).1
      · unfold binary64
        rw [rn_pos_eq 53 (by linarith)]
        exact dyadic_rnPos (j := 1) (by linarith) (by norm_num; linarith)

theorem recGainRowR_ieee {f t : List K} (hf : GridRow f) (ht : GridRow t) :
    recGainRowR rnd f t = recGainRowR binary64 f t ∧ (∀ v ∈ recGainRowR binary64 f t, GridFlt 824 774 v) ∧
      ∀ v ∈ recGainRowR binary64 f t, ∀ x, v = .fin x → x ≤ 0 ∨ ∃ m : Int, x * 2 ^ 53 = m := by
  have key : ∀ b ∈ t, gainR rnd (f.getLastD 0) (t.getLastD 0) (rnd (t.getLastD 0 - b)) b =
      gainR binary64 (f.getLastD 0) (t.getLastD 0) (binary64 (t.getLastD 0 - b)) b ∧
      GridFlt 824 774 (gainR binary64 (f.getLastD 0) (t.getLastD 0) (binary64 (t.getLastD 0 - b)) b) ∧
      ∀ x, gainR binary64 (f.getLastD 0) (t.getLastD 0) (binary64 (t.getLastD 0 - b)) b = .fin x →
        ∃ q, binary64 q = q ∧ x = binary64 (1 - q) := by
    intro b hb
    have hz := (last_onGrid ht).sub (ht.grid b hb)
    rw [rnd_dyadic hi hz (by norm_num) (by norm_num)]
    exact gainR_ieee hi (last_onGrid hf) (last_onGrid ht) hz.rnd (ht.grid b hb)
  unfold recGainRowR
  simp only
  refine ⟨List.map_congr_left fun b hb => (key b hb).1, fun v hv => ?_, fun v hv x hx => ?_⟩
  · obtain ⟨b, hb, rfl⟩ := List.mem_map.1 hv
    exact (key b hb).2.1
  · obtain ⟨b, hb, rfl⟩ := List.mem_map.1 hv
    obtain ⟨q, hq, rfl⟩ := (key b hb).2.2 x hx
    exact one_sub_grid hq

theorem precGainRowR_ieee {f t : List K} (hf : GridRow f) (ht : GridRow t) :
    precGainRowR rnd f t = precGainRowR binary64 f t ∧ ∀ v ∈ precGainRowR binary64 f t, GridFlt 824 774 v := by
  unfold precGainRowR
  simp only
  constructor
  · exact zipWith_congr_mem fun a ha b hb => (gainR_ieee hi (last_onGrid hf) (last_onGrid ht)
      ((hf.grid a ha).mono le_rfl (by norm_num)) (ht.grid b hb)).1
  · intro v hv
    obtain ⟨a, ha, b, hb, rfl⟩ := mem_zipWith_of hv
    exact (gainR_ieee hi (last_onGrid hf) (last_onGrid ht) ((hf.grid a ha).mono le_rfl (by norm_num)) (ht.grid b hb)).2.1

include ho in
/-- **C127, precision-recall-gain curve.** -/
theorem prg_ieee {y : List Bool} {s : List (Flt K)} {W : Option (Mat K)} (h : CurveRange y s W) :
    prgCurveR rnd (sumBy order rnd) y s W = prgCurveR binary64 (sumBy order binary64) y s W ∧
      ∀ c thr, prgCurveR binary64 (sumBy order binary64) y s W = .ok (c, thr) → GridCurve 53 0 824 774 c := by
  obtain ⟨h1, h2⟩ := clf_ieee hi ho h
  unfold prgCurveR
  constructor
  · refine bind_congr_eq h1 fun ⟨f, t, thr⟩ hf => ?_
    obtain ⟨g1, g2⟩ := h2 f t thr hf
    have e2 : List.zipWith (recGainRowR rnd) f t = List.zipWith (recGainRowR binary64) f t :=
      zipWith_congr_mem fun a ha b hb => (recGainRowR_ieee hi (g1 a ha).1 (g2 b hb).1).1
    have e3 : List.zipWith (precGainRowR rnd) f t = List.zipWith (precGainRowR binary64) f t :=
      zipWith_congr_mem fun a ha b hb => (precGainRowR_ieee hi (g1 a ha).1 (g2 b hb).1).1
    simp only [e2, e3]
    refine bind_congr_eq rfl fun pg _ => ?_
    refine assert_congr ?_ fun _ => rfl
    congr 1
    rw [Bool.eq_iff_iff, List.any_eq_true, List.any_eq_true]
    refine exists_congr fun r => and_congr_right fun hr => ?_
    obtain ⟨a, ha, b, hb, rfl⟩ := mem_zipWith_of hr
    rw [(diffFR_ieee hi (recGainRowR_ieee hi (g1 a ha).1 (g2 b hb).1).2.1 (by norm_num) (by norm_num)).1]
  · intro c thr hc
    simp only [bind_ok_iff] at hc
    obtain ⟨⟨f, t, thr'⟩, hf, pg, hpg, _, -, _, ha, _, -, hc⟩ := hc
    replace ha := assert_of ha
    simp only [pure_eq_ok, Except.ok.injEq, Prod.mk.injEq] at hc
    obtain ⟨rfl, -⟩ := hc
    obtain ⟨g1, g2⟩ := h2 f t thr' hf
    rw [List.all_eq_true] at ha
    constructor
    · intro r hr
      have ha' := List.all_eq_true.1 (ha r hr)
      obtain ⟨r0, hr0, rfl⟩ := List.mem_map.1 hr
      obtain ⟨a, hfa, b, hb, rfl⟩ := mem_zipWith_of hr0
      obtain ⟨-, k1, k2⟩ := recGainRowR_ieee hi (g1 a hfa).1 (g2 b hb).1
      refine ⟨fun v hv x hx => ?_, ?_⟩
      · have hle := ha' v hv
        obtain ⟨u, hu, rfl⟩ := List.mem_map.1 hv
        cases u with
        | fin x' =>
          rw [Flt.maximum_fin, Flt.fin.injEq] at hx
          rw [Flt.maximum_fin, hx] at hle
          simp only [Flt.le, Flt.isNaN, Bool.not_false, Bool.true_and, decide_eq_true_eq, Flt.fin_le_fin] at hle
          have h0 : 0 ≤ x := hx ▸ le_max_left _ _
          refine ⟨?_, by rw [abs_of_nonneg h0, pow_zero]; exact hle⟩
          rcases k2 _ hu x' rfl with h' | h'
          · rw [max_eq_left h'] at hx
            exact ⟨0, by simp [← hx]⟩
          · rcases max_choice 0 x' with e | e
            · rw [e] at hx
              exact ⟨0, by simp [← hx]⟩
            · rw [e] at hx
              exact hx ▸ h'
        | pinf => simp [Flt.maximum] at hx
        | ninf =>
          have : Flt.maximum (.fin (0 : K)) .ninf = .fin 0 := by simp [Flt.maximum]
          rw [this, Flt.fin.injEq] at hx
          exact hx ▸ OnGrid.zero
        | nan => simp [Flt.maximum] at hx
      · rw [List.length_map]
        unfold recGainRowR
        simpa using (g2 b hb).2
    · intro r hr
      obtain ⟨r0, hr0, hcs⟩ := mapM_mem_of hpg hr
      obtain ⟨a, hfa, b, hb, rfl⟩ := mem_zipWith_of hr0
      obtain ⟨m1, m2⟩ := copySecond_mem hcs
      have p1 := (precGainRowR_ieee hi (g1 a hfa).1 (g2 b hb).1).2
      refine ⟨fun v hv => p1 v (m1 v hv), ?_⟩
      rw [m2]
      unfold precGainRowR
      simp only [List.length_zipWith]
      have := (g2 b hb).2
      omega

end
end Mlp.Props
