import Verif.Lemmas.PerfRound
import Verif.Props.CurveLaws

/-! # Lemmas on the curves in floating point arithmetic: the rows of the three curves -/

set_option linter.unusedSectionVars false

namespace Mlp.Lemmas
open Mlp.Util Mlp.Perf Mlp.PerfR Mlp.Spec Mlp.Round Mlp.Props

section
variable {K : Type} [Field K] [LinearOrder K] [IsStrictOrderedRing K] {rnd : K → K} (hr : FloatRounding rnd)
include hr

omit hr in
theorem overLastR_eq {r : List K} (hl : 0 < r.getLastD 0) :
    overLastR rnd r = finVec (r.map fun (v : K) => rnd (v / r.getLastD 0)) := by
  unfold overLastR finVec
  rw [List.map_map]
  refine List.map_congr_left fun v _ => ?_
  rw [Flt.div_fin hl.ne']
  rfl

omit hr in
theorem getLast?_of_pos {r : List K} (hl : 0 < r.getLastD 0) : r.getLast? = some (r.getLastD 0) := by
  rw [List.getLastD_eq_getLast?] at *
  cases h : r.getLast? with
  | none => rw [h] at hl; simp at hl
  | some a => rfl

theorem overLastR_rises {r : List K} (h0 : r.head? = some 0) (hm : r.Pairwise (· ≤ ·)) (hl : 0 < r.getLastD 0) :
    Rises (overLastR rnd r) := by
  refine ⟨_, overLastR_eq hl, ?_, ?_, ?_⟩
  · rw [List.pairwise_map]
    exact hm.imp fun h => hr.mono (div_le_div_of_nonneg_right h hl.le)
  · rw [List.head?_map, h0]
    simp [hr.zero]
  · rw [List.getLast?_map, getLast?_of_pos hl]
    simp only [Option.map_some, div_self hl.ne', hr.one]

/-! ## Precision -/

/-- A rounded share lies between 0 and 1. -/
theorem share_bounds {f t : K} (hf : 0 ≤ f) (ht : 0 ≤ t) (hr' : rnd t = t) (hp : 0 < f ∨ 0 < t) :
    ∃ x, rF rnd ((Flt.fin t).div (.fin (rnd (t + f)))) = .fin x ∧ 0 ≤ x ∧ x ≤ 1 := by
  have hs : 0 < rnd (t + f) := hr.pos _ (by rcases hp with h | h <;> linarith)
  refine ⟨rnd (t / rnd (t + f)), by rw [Flt.div_fin hs.ne']; rfl, hr.nonneg (div_nonneg ht hs.le), hr.le_one ?_⟩
  rw [div_le_one hs]
  exact hr.ge_of hr' (by linarith)

omit hr in
theorem mem_zip_tail {f t : List K} {a b : K} {p : K × K} (h : p ∈ f.zip t) : p ∈ (a :: f).zip (b :: t) :=
  List.mem_cons_of_mem _ h

/-- The precisions of rows in which, after the first entry, at least one count is positive. -/
theorem precisionRowR_ok {f t : List K} (h : RowFin rnd f t) (hb : ∀ p ∈ f.tail.zip t.tail, 0 < p.1 ∨ 0 < p.2) :
    ∃ xs, copySecond (precisionRowR rnd f t) = .ok (finVec xs) ∧ xs.length = t.length ∧ ∀ x ∈ xs, 0 ≤ x ∧ x ≤ 1 := by
  obtain ⟨hf, ht, hlen, h2, -, htn, hfn, -, -⟩ := h
  obtain ⟨t0, t1, t', rfl⟩ : ∃ a b l, t = a :: b :: l := by
    match t, h2 with
    | a :: b :: l, _ => exact ⟨a, b, l, rfl⟩
  obtain ⟨f0, f1, f', rfl⟩ : ∃ a b l, f = a :: b :: l := by
    match f, hlen with
    | a :: b :: l, _ => exact ⟨a, b, l, rfl⟩
  have key : ∀ (g s : List K), g.length = s.length → (∀ v ∈ g, v ∈ f0 :: f1 :: f') → (∀ v ∈ s, v ∈ t0 :: t1 :: t') →
      (∀ p ∈ g.zip s, 0 < p.1 ∨ 0 < p.2) →
      ∃ xs, precisionRowR rnd g s = finVec xs ∧ xs.length = s.length ∧ ∀ x ∈ xs, 0 ≤ x ∧ x ≤ 1 := by
    intro g
    induction g with
    | nil => intro s hs _ _ _; exact ⟨[], by simp [precisionRowR, finVec], by simpa using hs, by simp⟩
    | cons a g ih =>
      intro s hs hg hs' hb
      obtain ⟨b, s, rfl⟩ := List.exists_cons_of_length_eq_add_one hs.symm
      obtain ⟨xs, e, hl, hx⟩ := ih s (by simpa using hs) (fun v hv => hg v (List.mem_cons_of_mem _ hv))
        (fun v hv => hs' v (List.mem_cons_of_mem _ hv)) (fun p hp => hb p (mem_zip_tail hp))
      obtain ⟨x, ex, h0, h1⟩ := share_bounds hr (hfn a (hg a List.mem_cons_self)).1 (htn b (hs' b List.mem_cons_self)).1
        (htn b (hs' b List.mem_cons_self)).2 (hb (a, b) (by simp))
      refine ⟨x :: xs, ?_, by simp [hl], ?_⟩
      · unfold precisionRowR at e ⊢
        rw [List.zipWith_cons_cons, e, ex]; rfl
      · intro v hv
        rcases List.mem_cons.1 hv with rfl | hv
        · exact ⟨h0, h1⟩
        · exact hx v hv
  obtain ⟨xs, e, hl, hx⟩ := key (f1 :: f') (t1 :: t') (by simpa using hlen)
    (fun v hv => List.mem_cons_of_mem _ hv) (fun v hv => List.mem_cons_of_mem _ hv) hb
  obtain ⟨x, xs, rfl⟩ := List.exists_cons_of_length_eq_add_one hl
  refine ⟨x :: x :: xs, ?_, by simpa using hl, ?_⟩
  · unfold precisionRowR at e ⊢
    rw [List.zipWith_cons_cons, e]
    rfl
  · intro v hv
    rcases List.mem_cons.1 hv with rfl | hv
    · exact hx v (by simp)
    · exact hx v hv

/-! ## Gains -/

/-- The rounded ratio that a gain subtracts from one. -/
def lossRatio (rnd : K → K) (N P z t : K) : K := rnd (rnd (P * z) / rnd (N * t))

section
variable {N P : K} (hN : 0 < N) (hP : 0 < P)
include hN hP

theorem gainR_pos {z t : K} (ht : 0 < t) : gainR rnd N P z t = .fin (rnd (1 - lossRatio rnd N P z t)) := by
  have h1 : 0 < rnd (N * t) := hr.pos _ (mul_pos hN ht)
  unfold gainR
  rw [Flt.div_fin h1.ne']
  simp [lossRatio, rF, Flt.sub, Flt.neg, Flt.add, sub_eq_add_neg]

theorem gainR_zero {z : K} (hz : 0 < z) : gainR rnd N P z 0 = .ninf := by
  have h1 : 0 < rnd (P * z) := hr.pos _ (mul_pos hP hz)
  unfold gainR
  rw [mul_zero, hr.zero]
  simp [Flt.div, Flt.signInf, h1, rF, Flt.sub, Flt.neg, Flt.add]

theorem lossRatio_nonneg {z t : K} (hz : 0 ≤ z) (ht : 0 ≤ t) : 0 ≤ lossRatio rnd N P z t :=
  hr.nonneg (div_nonneg (hr.nonneg (mul_nonneg hP.le hz)) (hr.nonneg (mul_nonneg hN.le ht)))

theorem lossRatio_anti {z z' t t' : K} (hz : 0 ≤ z') (hzz : z' ≤ z) (ht : 0 < t) (htt : t ≤ t') :
    lossRatio rnd N P z' t' ≤ lossRatio rnd N P z t := by
  have h1 : 0 < rnd (N * t) := hr.pos _ (mul_pos hN ht)
  have h2 : rnd (N * t) ≤ rnd (N * t') := hr.mono (mul_le_mul_of_nonneg_left htt hN.le)
  have h3 : rnd (P * z') ≤ rnd (P * z) := hr.mono (mul_le_mul_of_nonneg_left hzz hP.le)
  have h4 : 0 ≤ rnd (P * z') := hr.nonneg (mul_nonneg hP.le hz)
  refine hr.mono ?_
  exact div_le_div₀ (h4.trans h3) h3 h1 h2

theorem gainR_le_one {z t : K} (hz : 0 ≤ z) (ht : 0 < t) : ∃ x, gainR rnd N P z t = .fin x ∧ x ≤ 1 :=
  ⟨_, gainR_pos hr hN hP ht, hr.le_one (by linarith [lossRatio_nonneg hr hN hP hz ht.le])⟩

end

/-- The clipped recall gain at a true positive count `t`. -/
def recGainVal (rnd : K → K) (N P t : K) : K :=
  if t = 0 then 0 else max 0 (rnd (1 - lossRatio rnd N P (rnd (P - t)) t))

section
variable {N P : K} (hN : 0 < N) (hP : 0 < P) (hPr : rnd P = P)
include hN hP hPr

theorem recGain_zero : gainR rnd N P (rnd (P - 0)) 0 = .ninf := by
  rw [sub_zero, hPr]; exact gainR_zero hr hN hP hP

theorem recGain_max {t : K} (ht : 0 ≤ t) :
    Flt.maximum (.fin 0) (gainR rnd N P (rnd (P - t)) t) = .fin (recGainVal rnd N P t) := by
  unfold recGainVal
  by_cases h : t = 0
  · rw [if_pos h, h, recGain_zero hr hN hP hPr]
    simp [Flt.maximum]
  · rw [if_neg h, gainR_pos hr hN hP (lt_of_le_of_ne ht (Ne.symm h)), Flt.maximum_fin]

theorem recGainVal_mono {t t' : K} (ht : 0 ≤ t) (htt : t ≤ t') (htP : t' ≤ P) :
    recGainVal rnd N P t ≤ recGainVal rnd N P t' := by
  unfold recGainVal
  by_cases h : t = 0
  · rw [if_pos h]
    split_ifs
    · exact le_rfl
    · exact le_max_left _ _
  · have ht' : 0 < t := lt_of_le_of_ne ht (Ne.symm h)
    rw [if_neg h, if_neg (by linarith : t' ≠ 0 )]
    refine max_le_max le_rfl (hr.mono (sub_le_sub_left ?_ _))
    exact lossRatio_anti hr hN hP (hr.nonneg (by linarith)) (hr.mono (by linarith)) ht' htt

theorem recGainVal_last : recGainVal rnd N P P = 1 := by
  unfold recGainVal lossRatio
  rw [if_neg hP.ne', sub_self, hr.zero, mul_zero, hr.zero, zero_div, hr.zero, sub_zero, hr.one]
  simp

theorem recGainVal_le_one {t : K} (ht : 0 ≤ t) (htP : t ≤ P) : recGainVal rnd N P t ≤ 1 :=
  recGainVal_last hr hN hP hPr ▸ recGainVal_mono hr hN hP hPr ht htP le_rfl

/-- Recall gains do not go down, as far as numpy can tell. -/
theorem recGain_diff {t t' : K} (ht : 0 ≤ t) (htt : t ≤ t') (htP : t' ≤ P) :
    (rF rnd (Flt.sub (gainR rnd N P (rnd (P - t')) t') (gainR rnd N P (rnd (P - t)) t))).lt (.fin 0) = false := by
  by_cases h : t = 0
  · subst h
    rw [recGain_zero hr hN hP hPr]
    by_cases h' : t' = 0
    · subst h'
      rw [recGain_zero hr hN hP hPr]
      rfl
    · rw [gainR_pos hr hN hP (lt_of_le_of_ne htt (Ne.symm h'))]
      rfl
  · have ht' : 0 < t := lt_of_le_of_ne ht (Ne.symm h)
    rw [gainR_pos hr hN hP ht', gainR_pos hr hN hP (lt_of_lt_of_le ht' htt)]
    have h1 := lossRatio_anti hr hN hP (z := rnd (P - t)) (z' := rnd (P - t')) (hr.nonneg (by linarith))
      (hr.mono (by linarith)) ht' htt
    have h2 : rnd (1 - lossRatio rnd N P (rnd (P - t)) t) ≤ rnd (1 - lossRatio rnd N P (rnd (P - t')) t') :=
      hr.mono (by linarith)
    have h3 := hr.nonneg (sub_nonneg.2 h2)
    rw [Bool.eq_false_iff, ne_eq, Flt.lt_iff]
    rintro ⟨-, hlt⟩
    simp only [Flt.sub, Flt.neg, Flt.add, rF, Flt.fin_lt_fin] at hlt
    rw [← sub_eq_add_neg] at hlt
    exact absurd hlt (not_lt.2 h3)

end

/-! ## The rows of the precision-recall-gain curve -/

omit hr in
theorem le_last {l : List K} (hm : l.Pairwise (· ≤ ·)) {v : K} (hv : v ∈ l) : v ≤ l.getLastD 0 := by
  obtain ⟨l', a, rfl⟩ := (List.eq_nil_or_concat l).resolve_left (List.ne_nil_of_mem hv)
  rw [List.concat_eq_append] at *
  rw [List.pairwise_append] at hm
  have e : (l' ++ [a]).getLastD 0 = a := by simp [List.getLastD_eq_getLast?]
  rw [e]
  rcases List.mem_append.1 hv with h | h
  · exact hm.2.2 v h a (by simp)
  · simp at h; exact h.le

section
variable {f t : List K} (h : RowFin rnd f t)
include h

theorem recGainRowR_max : (recGainRowR rnd f t).map (fun v => Flt.maximum (.fin 0) v) =
    finVec (t.map (recGainVal rnd (f.getLastD 0) (t.getLastD 0))) := by
  have hPr := (h.tnum _ (getLastD_mem' (by intro e; have := h.two; rw [e] at this; simp at this))).2
  unfold recGainRowR finVec
  simp only [List.map_map]
  exact List.map_congr_left fun v hv => recGain_max hr h.flast h.tlast hPr (h.tnum v hv).1

theorem recGainRowR_rises : Rises (finVec (t.map (recGainVal rnd (f.getLastD 0) (t.getLastD 0)))) := by
  have hPr := (h.tnum _ (getLastD_mem' (by intro e; have := h.two; rw [e] at this; simp at this))).2
  refine ⟨_, rfl, ?_, ?_, ?_⟩
  · rw [List.pairwise_map]
    refine List.Pairwise.imp_of_mem ?_ h.tmono
    intro a b ha hb hab
    exact recGainVal_mono hr h.flast h.tlast hPr (h.tnum a ha).1 hab (le_last h.tmono hb)
  · rw [List.head?_map, h.thead]
    simp [recGainVal]
  · rw [List.getLast?_map, getLast?_of_pos h.tlast]
    simp only [Option.map_some, recGainVal_last hr h.flast h.tlast hPr]

theorem recGainRowR_diff : ((diffFR rnd (recGainRowR rnd f t)).any fun d => d.lt (.fin 0)) = false := by
  have hPr := (h.tnum _ (getLastD_mem' (by intro e; have := h.two; rw [e] at this; simp at this))).2
  rw [List.any_eq_false]
  intro d hd
  unfold diffFR recGainRowR at hd
  simp only [← List.map_tail, List.zipWith_map] at hd
  obtain ⟨i, hi, rfl⟩ := List.getElem_of_mem hd
  rw [List.getElem_zipWith]
  simp only [List.length_zipWith, List.length_tail] at hi
  have h1 : t[i] ≤ t.tail[i]'(by simp; omega) := by
    rw [List.getElem_tail]
    exact (List.pairwise_iff_getElem.1 h.tmono) _ _ _ _ (by omega)
  have h2 := recGain_diff hr h.flast h.tlast hPr (h.tnum _ (List.getElem_mem (by omega))).1 h1
    (le_last h.tmono (List.mem_of_mem_tail (List.getElem_mem _)))
  rw [h2]
  simp

/-- The check of line 263: where the recall gain is not 0 the precision gain is at most 1. -/
theorem precGainRowR_ok : ∃ r, copySecond (precGainRowR rnd f t) = .ok r ∧ r.length = t.length ∧
    ∀ q ∈ (finVec (t.map (recGainVal rnd (f.getLastD 0) (t.getLastD 0)))).zip r,
      q.1 = .fin 0 ∨ ∃ x, q.2 = .fin x ∧ x ≤ 1 := by
  obtain ⟨hf, ht, hlen, h2, htm, htn, hfn, htl, hfl⟩ := h
  generalize hP : t.getLastD 0 = P at *
  generalize hN : f.getLastD 0 = N at *
  obtain ⟨t0, t1, t', rfl⟩ : ∃ a b l, t = a :: b :: l := by
    match t, h2 with
    | a :: b :: l, _ => exact ⟨a, b, l, rfl⟩
  obtain ⟨f0, f1, f', rfl⟩ : ∃ a b l, f = a :: b :: l := by
    match f, hlen with
    | a :: b :: l, _ => exact ⟨a, b, l, rfl⟩
  have ht0 : t0 = 0 := by simpa using ht
  have key : ∀ (g s : List K), g.length = s.length → (∀ v ∈ g, v ∈ f0 :: f1 :: f') → (∀ v ∈ s, v ∈ t0 :: t1 :: t') →
      ∀ q ∈ (finVec (s.map (recGainVal rnd N P))).zip (List.zipWith (fun (f t : K) => gainR rnd N P f t) g s),
      q.1 = .fin 0 ∨ ∃ x, q.2 = .fin x ∧ x ≤ 1 := by
    intro g
    induction g with
    | nil => simp
    | cons a g ih =>
      intro s hs hg hs' q hq
      obtain ⟨b, s, rfl⟩ := List.exists_cons_of_length_eq_add_one hs.symm
      rw [List.zipWith_cons_cons, List.map_cons, finVec, List.map_cons, List.zip_cons_cons] at hq
      rcases List.mem_cons.1 hq with rfl | hq
      · by_cases hb : b = 0
        · left; simp [recGainVal, hb]
        · right
          exact gainR_le_one hr hfl htl (hfn a (hg a List.mem_cons_self)).1
            (lt_of_le_of_ne (htn b (hs' b List.mem_cons_self)).1 (Ne.symm hb))
      · exact ih s (by simpa using hs) (fun v hv => hg v (List.mem_cons_of_mem _ hv))
          (fun v hv => hs' v (List.mem_cons_of_mem _ hv)) q hq
  refine ⟨gainR rnd N P f1 t1 :: gainR rnd N P f1 t1 :: List.zipWith (fun (f t : K) => gainR rnd N P f t) f' t',
    ?_, ?_, ?_⟩
  · unfold precGainRowR
    simp only [hN, hP, List.zipWith_cons_cons]
    exact rfl
  · simp at hlen; simp [hlen]
  · intro q hq
    rw [List.map_cons, finVec, List.map_cons, List.zip_cons_cons] at hq
    rcases List.mem_cons.1 hq with rfl | hq
    · left; simp [recGainVal, ht0]
    · refine key (f1 :: f') (t1 :: t') (by simpa using hlen) (fun v hv => List.mem_cons_of_mem _ hv)
        (fun v hv => List.mem_cons_of_mem _ hv) q ?_
      rw [List.zipWith_cons_cons]
      exact hq

end

end
end Mlp.Lemmas
