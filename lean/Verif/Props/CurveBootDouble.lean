import Verif.Props.CurveBootRoundOk
import Verif.Props.CurvesDouble

/-! # Property C115: `curve_boot` in double precision for the three curves of the library -/

set_option linter.unusedSectionVars false

namespace Mlp.Props
open Mlp.PerfR Mlp.Perf Mlp.BootR Mlp.Boot Mlp.Util Mlp.Spec Mlp.Lemmas Mlp.CurveR Mlp.Classif Mlp.Frame Mlp.Round

section
variable {K : Type} [Field K] [LinearOrder K] [IsStrictOrderedRing K] {rnd : K → K} {sumR : List K → K}

/-- Where no precision is NaN, every precision gain is `-inf` or a number that is at most 1. -/
theorem precGain_of_precision (hr : FloatRounding rnd) {f t : List K} (h : RowFin rnd f t) {r q : List (Flt K)}
    (hq : copySecond (precisionRowR rnd f t) = .ok q) (hn : NoNaN q) (hp : copySecond (precGainRowR rnd f t) = .ok r) :
    ∀ v ∈ r, v ≤ .fin 1 := by
  obtain ⟨hf, ht, hlen, h2, htm, htn, hfn, htl, hfl⟩ := h
  generalize hP : t.getLastD 0 = P at *
  generalize hN : f.getLastD 0 = N at *
  obtain ⟨t0, t1, t', rfl⟩ : ∃ a b l, t = a :: b :: l := by
    match t, h2 with
    | a :: b :: l, _ => exact ⟨a, b, l, rfl⟩
  obtain ⟨f0, f1, f', rfl⟩ : ∃ a b l, f = a :: b :: l := by
    match f, hlen with
    | a :: b :: l, _ => exact ⟨a, b, l, rfl⟩
  have one : ∀ {a b : K}, 0 ≤ a ∧ rnd a = a → 0 ≤ b ∧ rnd b = b →
      rF rnd ((Flt.fin b).div (.fin (rnd (b + a)))) ≠ .nan → gainR rnd N P a b ≤ .fin 1 := by
    intro a b ha hb hne
    rcases hb.1.eq_or_lt with rfl | hb0
    · have ha0 : a ≠ 0 := by
        rintro rfl
        simp [hr.zero, Flt.div, Flt.signInf, rF] at hne
      have hpos : 0 < rnd (P * a) := hr.pos _ (mul_pos htl (lt_of_le_of_ne ha.1 (Ne.symm ha0)))
      simp [gainR, hr.zero, Flt.div, Flt.signInf, hpos, rF, Flt.sub, Flt.add, Flt.neg]
    · obtain ⟨x, e, hx⟩ := gainR_le_one hr hfl htl ha.1 hb0
      rw [e]; exact Flt.fin_le_fin.2 hx
  have key : ∀ (g s : List K), g.length = s.length → (∀ v ∈ g, v ∈ f0 :: f1 :: f') → (∀ v ∈ s, v ∈ t0 :: t1 :: t') →
      NoNaN (List.zipWith (fun (f t : K) => rF rnd ((Flt.fin t).div (.fin (rnd (t + f))))) g s) →
      ∀ v ∈ List.zipWith (fun (f t : K) => gainR rnd N P f t) g s, v ≤ .fin 1 := by
    intro g
    induction g with
    | nil => simp
    | cons a g ih =>
      intro s hs hg hs' hnn v hv
      obtain ⟨b, s, rfl⟩ := List.exists_cons_of_length_eq_add_one hs.symm
      rw [List.zipWith_cons_cons] at hv hnn
      rcases List.mem_cons.1 hv with rfl | hv
      · refine one (hfn a (hg a List.mem_cons_self)) (htn b (hs' b List.mem_cons_self)) ?_
        intro e
        exact hnn (by rw [← e]; exact List.mem_cons_self)
      · exact ih s (by simpa using hs) (fun v hv => hg v (List.mem_cons_of_mem _ hv))
          (fun v hv => hs' v (List.mem_cons_of_mem _ hv)) (fun hm => hnn (List.mem_cons_of_mem _ hm)) v hv
  have eq1 : q = rF rnd ((Flt.fin t1).div (.fin (rnd (t1 + f1)))) :: List.zipWith
      (fun (f t : K) => rF rnd ((Flt.fin t).div (.fin (rnd (t + f))))) (f1 :: f') (t1 :: t') := (Except.ok.inj hq).symm
  have eq2 : r = gainR rnd N P f1 t1 :: List.zipWith (fun (f t : K) => gainR rnd N P f t) (f1 :: f') (t1 :: t') := by
    unfold precGainRowR at hp
    simp only [hN, hP] at hp
    exact (Except.ok.inj hp).symm
  have hall := key (f1 :: f') (t1 :: t') (by simpa using hlen) (fun v hv => List.mem_cons_of_mem _ hv)
    (fun v hv => List.mem_cons_of_mem _ hv) (fun hm => hn (by rw [eq1]; exact List.mem_cons_of_mem _ hm))
  intro v hv
  rw [eq2] at hv
  rcases List.mem_cons.1 hv with rfl | hv
  · exact hall _ (by rw [List.zipWith_cons_cons]; exact List.mem_cons_self)
  · exact hall v hv

theorem thresholds_le {s : List K} {thr : List (Flt K)} (h : IsThresholds s thr) : thr.length ≤ s.length + 1 := by
  obtain ⟨ds, rfl, h1, h2⟩ := h
  have hnd : ds.Nodup := h1.imp fun hab => hab.ne'
  have : ds.length ≤ s.length := by
    have := hnd.subperm (l₂ := s) fun v hv => (h2 v).1 hv
    exact this.length_le
  simpa [finVec] using this

theorem rises_rows {A : List (List (Flt K))} {n : Nat} (h : ∀ r ∈ A, Rises r ∧ r.length = n) : ∃ X : List (List K), A = X.map finVec ∧
    ∀ x ∈ X, x.length = n ∧ x.Pairwise (· ≤ ·) ∧ x.head? = some 0 ∧ x.getLast? = some 1 := by
  induction A with
  | nil => exact ⟨[], rfl, by simp⟩
  | cons a A ih =>
    obtain ⟨X, rfl, hX⟩ := ih fun r hr => h r (List.mem_cons_of_mem _ hr)
    obtain ⟨⟨x, rfl, hx⟩, hl⟩ := h a List.mem_cons_self
    refine ⟨x :: X, rfl, fun z hz => ?_⟩
    rcases List.mem_cons.1 hz with rfl | hz
    · exact ⟨by simpa [finVec] using hl, hx⟩
    · exact hX z hz

end

section
variable {K : Type} [Field K] [LinearOrder K] [IsStrictOrderedRing K] [FloorRing K] {rnd : K → K} {sumR : List K → K}

theorem unitCurveAt_of {lo : Flt K} {f : CurveF K} {y : List Bool} {s : List K} {W : Option (List (List K))}
    {A B : List (List (Flt K))} {thr : List (Flt K)} {kind : Kind} (hk : kind = .previous ∨ kind = .linear ∧ lo = .fin 0) (hne : s ≠ [])
    (e : f y (finVec s) (W.map (finMat y.length)) = .ok (⟨matOf thr A, matOf thr B, kind⟩, thr)) (ht : IsThresholds s thr)
    (hA : A.length = (weightRows y.length W).length) (hB : B.length = (weightRows y.length W).length)
    (h1 : ∀ r ∈ A, Rises r ∧ r.length = thr.length) (h2 : ∀ r ∈ B, r.length = thr.length ∧ ∀ v ∈ r, lo ≤ v ∧ v ≤ .fin 1) :
    UnitCurveAt lo (s.length + 1) f y s W := by
  obtain ⟨X, rfl, hX⟩ := rises_rows h1
  rw [List.length_map] at hA
  exact ⟨thr.length, X, B, kind, thr, e, thresholds_le ht, hA, hk, thresholds_two hne ht, hB.trans hA.symm, hX, h2⟩

/-- **C115, the ROC curve**: a curve from 0 to 1, whenever it is computed. -/
theorem roc_unitAt (hr : FloatRounding rnd) {y : List Bool} {s : List K} {W : Option (List (List K))} (h : CurveInput y s W)
    (hN : W = none → ∀ k : Nat, k ≤ y.length → rnd (k : K) = k)
    (hok : ∃ v, rocCurveR rnd sumR y (finVec s) (W.map (finMat y.length)) = .ok v) :
    UnitCurveAt (.fin 0) (s.length + 1) (rocCurveR rnd sumR) y s W := by
  obtain ⟨⟨c, thr⟩, e⟩ := hok
  obtain ⟨ht, -, hx, hy, h1, h2⟩ := C104_roc hr h hN e
  have e' := e
  rw [rocR_eq hr h hN] at e'
  split_ifs at e'
  rw [Except.ok.injEq, Prod.mk.injEq] at e'
  obtain ⟨rfl, rfl⟩ := e'
  refine unitCurveAt_of (Or.inr ⟨rfl, rfl⟩) h.scores_ne e ht hx hy h1 fun r hr' => ⟨(h2 r hr').2, ?_⟩
  obtain ⟨xs, e2, hp, h0, h3⟩ := (h2 r hr').1
  rw [e2]
  intro v hv
  obtain ⟨x, hx', rfl⟩ := List.mem_map.1 hv
  have b1 : 0 ≤ x := by
    obtain ⟨a, l, rfl⟩ := List.exists_cons_of_ne_nil (List.ne_nil_of_mem hx')
    simp only [List.head?_cons, Option.some.injEq] at h0
    subst h0
    rcases List.mem_cons.1 hx' with rfl | hx'
    · exact le_rfl
    · exact (List.pairwise_cons.1 hp).1 x hx'
  have b2 : x ≤ 1 := by
    have hne := List.ne_nil_of_mem hx'
    rw [List.getLast?_eq_getLast_of_ne_nil hne, Option.some.injEq] at h3
    rw [← h3]
    rcases List.mem_iff_getElem.1 hx' with ⟨i, hi, rfl⟩
    rw [List.getLast_eq_getElem]
    rcases Nat.lt_or_ge i (xs.length - 1) with hlt | hge
    · exact (List.pairwise_iff_getElem.1 hp) _ _ _ _ hlt
    · have : i = xs.length - 1 := by omega
      subst this
      exact le_rfl
  exact ⟨Flt.fin_le_fin.2 b1, Flt.fin_le_fin.2 b2⟩

/-- **C115, the precision-recall curve.** -/
theorem rp_unitAt (hr : FloatRounding rnd) {y : List Bool} {s : List K} {W : Option (List (List K))} (h : CurveInput y s W)
    (hN : W = none → ∀ k : Nat, k ≤ y.length → rnd (k : K) = k)
    (hok : ∃ v, recallPrecisionCurveR rnd sumR y (finVec s) (W.map (finMat y.length)) = .ok v) :
    UnitCurveAt (.fin 0) (s.length + 1) (recallPrecisionCurveR rnd sumR) y s W := by
  obtain ⟨⟨c, thr⟩, e⟩ := hok
  obtain ⟨ht, -, hx, hy, h1, h2⟩ := C104_recall_precision hr h hN e
  have e' := e
  rw [rpR_eq hr h hN] at e'
  split_ifs at e'
  rw [Except.ok.injEq, Prod.mk.injEq] at e'
  obtain ⟨rfl, rfl⟩ := e'
  refine unitCurveAt_of (Or.inl rfl) h.scores_ne e ht hx hy h1 fun r hr' => ?_
  obtain ⟨xs, rfl, hl, hb⟩ := h2 r hr'
  refine ⟨by simpa [finVec] using hl, fun v hv => ?_⟩
  obtain ⟨x, hx', rfl⟩ := List.mem_map.1 hv
  exact ⟨Flt.fin_le_fin.2 (hb x hx').1, Flt.fin_le_fin.2 (hb x hx').2⟩

/-- **C115, the precision-recall-gain curve**: where the precision-recall curve is computed, this one is too, and every
precision gain is `-inf` or a number that is at most 1. -/
theorem C115_prg_unit (hr : FloatRounding rnd) {y : List Bool} {s : List K} {W : Option (List (List K))} (h : CurveInput y s W)
    (hN : W = none → ∀ k : Nat, k ≤ y.length → rnd (k : K) = k)
    (hok : ∃ v, recallPrecisionCurveR rnd sumR y (finVec s) (W.map (finMat y.length)) = .ok v) :
    UnitCurveAt .ninf (s.length + 1) (prgCurveR rnd sumR) y s W := by
  obtain ⟨v, ev⟩ := hok
  rw [rpR_eq hr h hN] at ev
  split_ifs at ev with hif
  rw [Bool.and_eq_true, List.all_eq_true] at hif
  have e := prgR_eq (sumR := sumR) hr h hN
  rw [if_pos hif.1] at e
  obtain ⟨ht, -, hx, hy, h1, -⟩ := C104_prg hr h hN e
  refine unitCurveAt_of (Or.inl rfl) h.scores_ne e ht hx hy h1 fun r hr' => ?_
  obtain ⟨w, hw, rfl⟩ := List.mem_map.1 hr'
  have hf := (countRow_fin hr h hw).done.toRowFin
  obtain ⟨r, e1, hl, -⟩ := precGainRowR_ok hr hf
  obtain ⟨q, e2, -⟩ := copySecond_precision (rnd := rnd) hf.len hf.two
  have hall := List.all_eq_true.1 (hif.2 w hw)
  rw [e2, okD] at hall
  rw [e1, okD]
  refine ⟨by rw [hl, countRow_length h w], fun v hv => ⟨Flt.ninf_le _, ?_⟩⟩
  refine precGain_of_precision hr hf e2 (fun hn => ?_) e1 v hv
  have := hall _ hn
  simp [Flt.le] at this

/-! ### Double precision -/

theorem binary64_eps : 0 < binary64 (1 / 10000000000 : K) := binary64_floatRounding.pos _ (by norm_num)

theorem countRows_input {y : List Bool} {s : List K} (hy : y ≠ []) (hl : s.length = y.length) {counts : List (List Nat)}
    (hc : counts ≠ []) (hcr : ∀ row ∈ counts, row.length = y.length) :
    CurveInput y s (some (countRows (binary64 (1 / 10000000000)) counts)) := by
  refine ⟨hl, hy, by simpa [weightRows, countRows] using hc, fun w hw => ?_⟩
  obtain ⟨row, hrow, rfl⟩ := List.mem_map.1 hw
  refine ⟨by simpa using hcr row hrow, fun v hv => ?_⟩
  obtain ⟨c, -, rfl⟩ := List.mem_map.1 hv
  exact lt_of_lt_of_le binary64_eps (le_max_left _ _)

theorem countRows_boot {n : Nat} (hn : 1 ≤ n) {counts : List (List Nat)} (hc : counts ≠ []) (hcr : ∀ row ∈ counts, row.length = n)
    (ε : K) : Boot.bootWeights (n : Int) counts.length ε counts = .ok (countRows ε counts) := by
  have : 1 ≤ counts.length := List.length_pos_iff.2 hc
  unfold bootWeights
  have h3 : ((counts.map fun row => row.map fun (c : Nat) => max ε (c : K)).all
      fun row => decide ((row.length : Int) = n)) = true := by
    simp only [List.all_eq_true, List.mem_map, decide_eq_true_eq]
    rintro _ ⟨row, hrow, rfl⟩
    simp [hcr row hrow]
  simp only [h3, List.length_map, decide_true, Bool.and_true, pyAssert_bind, if_true, pure_eq_ok]
  rw [if_pos (decide_eq_true (by omega)), if_pos (decide_eq_true (by omega))]
  rfl

/-- A curve function of the library in double precision, with the lowest possible value of its curves and the number of samples up to which it
is known not to fail on bootstrap weights. -/
inductive StdCurve (sumR : List K → K) : CurveF K → Flt K → Nat → Prop
  | roc : StdCurve sumR (rocCurveR binary64 sumR) (.fin 0) 3000
  | recallPrecision : StdCurve sumR (recallPrecisionCurveR binary64 sumR) (.fin 0) 300
  | prg : StdCurve sumR (prgCurveR binary64 sumR) .ninf 300

theorem std_unitAt (hs : AddsAlongTrees binary64 sumR) {f : CurveF K} {lo : Flt K} {cap : Nat} (hf : StdCurve sumR f lo cap)
    {y : List Bool} {s : List K} (hy : y ≠ []) (hl : s.length = y.length) (hn : y.length ≤ cap) {counts : List (List Nat)}
    (hc : counts ≠ []) (hcr : ∀ row ∈ counts, row.length = y.length ∧ row.sum = y.length) :
    UnitCurveAt lo (s.length + 1) f y s none ∧
      UnitCurveAt lo (s.length + 1) f y s (some (countRows (binary64 (1 / 10000000000)) counts)) := by
  have hin := curveInput_none (K := K) hy hl
  have hinb := countRows_input hy hl hc fun row h => (hcr row h).1
  have hcap : cap ≤ 3000 := by cases hf <;> omega
  have hW := countRows_boot (K := K) (List.length_pos_iff.2 hy) hc (fun row h => (hcr row h).1) (binary64 (1 / 10000000000))
  obtain ⟨u1, u2, u3⟩ := C105_unweighted_double (sumR := sumR) hin (by omega)
  obtain ⟨⟨b1, b2⟩, b3⟩ := C105_bootstrap hl (fun row h => (hcr row h).2) hW hs (by omega)
  have hnat : (none : Option (List (List K))) = none → ∀ k : Nat, k ≤ y.length → binary64 (k : K) = k :=
    fun _ => binary64_nat (by omega)
  cases hf with
  | roc => exact ⟨roc_unitAt binary64_floatRounding hin hnat u1, roc_unitAt binary64_floatRounding hinb (by simp) b1⟩
  | recallPrecision =>
    exact ⟨rp_unitAt binary64_floatRounding hin hnat u2, rp_unitAt binary64_floatRounding hinb (by simp) (b3 hn)⟩
  | prg =>
    exact ⟨C115_prg_unit binary64_floatRounding hin hnat u2, C115_prg_unit binary64_floatRounding hinb (by simp) (b3 hn)⟩

/-- **C115, double precision.**  For the ROC curve of up to 3000 samples and the precision-recall and precision-recall-gain curves of up to 300,
labels 0 and 1, predictions without NaN whose log-probabilities of label 1 are finite, a valid reference, a grid in [0, 1]
(or the default) and a confidence between 0 and 1, `curve_boot` returns a result for every draw of the bootstrap, whatever the
order in which `np.sum` adds.  Areas of ROC and precision-recall curves and their error bars are between 0 and `1 + 1e-12`, all values of the
curves and of their envelopes within `1e-15` of [0, 1].  (With precision-recall-gain curves: without pairs.) -/
theorem C115_double (hs : AddsAlongTrees binary64 sumR) (other : Interp K) {f : CurveF K} {lo : Flt K} {cap : Nat}
    (hf : StdCurve sumR f lo cap) {y : LabelVec} {p : Mat K} (hy : ClassInput y p) (hn : p.rows.length ≤ cap)
    {s : List K} (hp : BinaryPreds p s) {ref : RefArg K} (href : GoodRef p ref)
    {counts : List (List Nat)} (hc : counts ≠ []) (hcm : counts.length ≤ 2 ^ 52)
    (hcr : ∀ row ∈ counts, row.length = p.rows.length ∧ row.sum = p.rows.length) {xGrid : Option (List (Flt K))}
    (hg : ∀ l, xGrid = some l → ∃ grid : List K, l = finVec grid ∧ grid ≠ [] ∧ ∀ v ∈ grid, 0 ≤ v ∧ v ≤ 1)
    {conf : K} (h0 : 0 < conf) (h1 : conf < 1) {pairwise : Bool} (hpw : pairwise = true → lo = .fin 0) :
    ∃ auc EB pval rows,
      curveBootR binary64 sumR other y p ref f xGrid counts.length pairwise (.fin conf) counts = .ok ((auc, EB, pval), rows) ∧
      auc ≠ .nan ∧ auc ≠ .pinf ∧ (lo = .fin 0 → Flt.fin 0 ≤ auc ∧ auc ≤ .fin (1 + 1 / 10 ^ 12)) ∧
      (∀ x, auc = .fin x → Flt.fin 0 ≤ EB ∧ EB ≠ .nan) ∧
      (pairwise = false → lo = .fin 0 → EB ≤ .fin (1 + 1 / 10 ^ 12)) ∧
      (∃ v : K, pval = .fin v ∧ 0 ≤ v ∧ v ≤ 1) ∧
      rows.length = (xGrid.getD (defaultGridR binary64)).length ∧
      ∀ r ∈ rows, r.2.1 ≤ .fin (1 + 1 / 10 ^ 15) ∧ r.2.2.1 ≤ r.2.2.2 ∧ r.2.2.2 ≤ .fin (1 + 1 / 10 ^ 15) ∧
        r.2.1 ≠ .nan ∧ r.2.2.1 ≠ .nan ∧ r.2.2.2 ≠ .nan ∧
        (lo = .fin 0 → Flt.fin (-(1 / 10 ^ 15)) ≤ r.2.1 ∧ Flt.fin (-(1 / 10 ^ 15)) ≤ r.2.2.1) := by
  have hbl : (boolLabels y).length = p.rows.length := by rw [boolLabels, List.length_map, hy.length]
  have hby : boolLabels y ≠ [] := by
    intro e
    rw [e] at hbl
    exact hy.nonempty (List.eq_nil_of_length_eq_zero hbl.symm)
  have hlen : ∀ {q : Mat K} {s : List K}, q.rows.length = p.rows.length → IsPosScore q (finVec s) → s.length = (boolLabels y).length := by
    intro q s hq hsc
    have := hsc.1
    simp only [finVec, List.length_map] at this
    omega
  have hsl := hlen rfl hp.score
  have hcr' : ∀ row ∈ counts, row.length = (boolLabels y).length ∧ row.sum = (boolLabels y).length := by rw [hbl]; exact hcr
  have hlo : lo = .ninf ∨ lo = .fin 0 := by cases hf <;> simp
  have hcap : cap ≤ 3000 := by cases hf <;> omega
  obtain ⟨f0, f1⟩ := std_unitAt hs hf hby hsl (by omega) hc hcr'
  have hu : (0 : K) ≤ 1 / 2 ^ 53 := by positivity
  have hu1 : (1 / 2 ^ 53 : K) ≤ 1 / 100 := by norm_num
  have href' : GoodRefAt lo (s.length + 1) f (boolLabels y) (countRows (binary64 (1 / 10000000000)) counts) p ref := by
    cases ref with
    | value r => exact href
    | preds q =>
      obtain ⟨hq, s', hq'⟩ := href
      have hsl' := hlen hq hq'.score
      have hE : s.length = s'.length := by omega
      obtain ⟨g0, g1⟩ := std_unitAt hs hf hby hsl' (by omega) hc hcr'
      rw [hE]
      exact ⟨hq, s', hq', g0, g1⟩
  obtain ⟨auc, EB, pval, rows, e, e1, e2, e3, e4, e5, e6, e7, e8⟩ := C115_success binary64_floatRounding hs hu hu1 binary64_relError
    binary64_halves (by norm_num) other hlo hy hp hc hcm (fun row h => (hcr row h).1) f0 f1 href' hg h0 h1 hpw
  have hpow : ∀ k : Nat, k ≤ 3010 → (1 + 1 / 2 ^ 53 : K) ^ k ≤ 1 + 1 / 10 ^ 12 := by
    intro k hk
    have hk' : (k : K) ≤ 3010 := by exact_mod_cast hk
    have h2 : (k : K) * (1 / 2 ^ 53) ≤ 3010 * (1 / 2 ^ 53) := mul_le_mul_of_nonneg_right hk' hu
    have h3 : (3010 * (1 / 2 ^ 53) : K) ≤ 1 / 2 / 10 ^ 12 := by norm_num
    have := pow_one_add_le hu (n := k) (by norm_num at h2 h3 ⊢; linarith)
    have h4 : 2 * (1 / 2 / 10 ^ 12 : K) = 1 / 10 ^ 12 := by ring
    linarith
  have h7 : (7 * (1 / 2 ^ 53) : K) ≤ 1 / 10 ^ 15 := by norm_num
  have hup : Flt.fin (1 + 7 * (1 / 2 ^ 53) : K) ≤ .fin (1 + 1 / 10 ^ 15) := Flt.fin_le_fin.2 (by linarith)
  have hdn : Flt.fin (-(1 / 10 ^ 15) : K) ≤ .fin (-(7 * (1 / 2 ^ 53))) := Flt.fin_le_fin.2 (by linarith)
  refine ⟨auc, EB, pval, rows, e, e1, e2, fun hl => ⟨(e3 hl).1, (e3 hl).2.trans (Flt.fin_le_fin.2 (hpow _ (by omega)))⟩, e4,
    fun hp hl => (e5 hp hl).trans (Flt.fin_le_fin.2 (hpow _ (by omega))), e6, e7, fun r hr => ?_⟩
  obtain ⟨g1, g2, g3, g4, g5, g6, g7⟩ := e8 r hr
  exact ⟨g1.trans hup, g2, g3.trans hup, g4, g5, g6, fun hl => ⟨hdn.trans (g7 hl).1, hdn.trans (g7 hl).2⟩⟩

end
end Mlp.Props
