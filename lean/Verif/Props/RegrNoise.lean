import Verif.Props.RegrLoss
import Verif.Lemmas.Stats

/-! # Properties C86 and C87: calibration of Gaussian predictions, and the regressor `JustNoise` -/

namespace Mlp.Props
open Mlp.Util Mlp.Spec Mlp.Regr Mlp.Classif Mlp.Lemmas

/-! ### Losses of vectors of numbers -/

theorem realArr_input {ys ms ss : List ℝ} (hne : ys ≠ []) (h1 : ms.length = ys.length) (h2 : ss.length = ys.length)
    (hpos : ∀ s ∈ ss, 0 < s) : RegrInput (realArr ys) (realArr ms) (realArr ss) ys.length where
  nonempty := List.length_pos_iff.2 hne
  shapes := ⟨rfl, by simp [realArr, h1], by simp [realArr, h2]⟩
  numbers := by
    rintro v (h | h | h) <;> obtain ⟨x, -, rfl⟩ := List.mem_map.1 h <;> exact ⟨x, rfl⟩
  positive := by
    intro v h
    obtain ⟨x, hx, rfl⟩ := List.mem_map.1 h
    exact Flt.fin_lt_fin.2 (hpos x hx)

theorem realArr_ok (xs : List ℝ) : (realArr xs).Ok := by simp [realArr, Arr.Ok]

theorem constArr_eq (n : Nat) (x : ℝ) : constArr n x = realArr (List.replicate n x) := by simp [constArr, realArr]

/-- The log loss of vectors of numbers. -/
theorem logLoss_realArr {ys ms ss : List ℝ} (hne : ys ≠ []) (h1 : ms.length = ys.length) (h2 : ss.length = ys.length)
    (hpos : ∀ s ∈ ss, 0 < s) : ∃ L : List ℝ, Regr.logLoss (realArr ys) (realArr ms) (realArr ss) = .ok (finVec L) ∧
      L.length = ys.length ∧ ∀ i (hi : i < ys.length) (hl : i < L.length),
        L[i] = gaussNLL ys[i] (ms[i]'(h1 ▸ hi)) (ss[i]'(h2 ▸ hi)) := by
  obtain ⟨L, hL, hp⟩ := C85_log (realArr_input hne h1 h2 hpos) (realArr_ok _) (realArr_ok _) (realArr_ok _)
  have hlen : L.length = ys.length := by simpa [realArr] using hp.1
  have key : ∀ i (hi : i < ys.length), L[i]? = some (.fin (gaussNLL ys[i] (ms[i]'(h1 ▸ hi)) (ss[i]'(h2 ▸ hi)))) := by
    intro i hi
    refine hp.2 i _ _ _ ?_ ?_ ?_ <;> simp [realArr, hi, h1, h2]
  obtain ⟨L', rfl⟩ := exists_finVec (l := L) (by
    rw [List.all_eq_true]
    intro v hv
    obtain ⟨i, hi, rfl⟩ := List.getElem_of_mem hv
    have := key i (by omega)
    rw [List.getElem?_eq_getElem hi, Option.some.injEq] at this
    rw [this]; rfl)
  refine ⟨L', hL, by simpa [finVec] using hlen, fun i hi hl => ?_⟩
  have := key i hi
  rw [List.getElem?_eq_getElem (by simpa [finVec] using hl), Option.some.injEq] at this
  simpa [finVec] using this

/-- The log loss of a constant prediction. -/
theorem logLoss_constArr {ys : List ℝ} (hne : ys ≠ []) (m : ℝ) {s : ℝ} (hs : 0 < s) :
    Regr.logLoss (realArr ys) (constArr ys.length m) (constArr ys.length s) = .ok (finVec (ys.map fun a => gaussNLL a m s)) := by
  obtain ⟨L, h1, h2, h3⟩ := logLoss_realArr (ms := List.replicate ys.length m) (ss := List.replicate ys.length s) hne (by simp)
    (by simp) (by intro x hx; rw [List.eq_of_mem_replicate hx]; exact hs)
  rw [constArr_eq, constArr_eq, h1]
  congr 2
  refine List.ext_getElem (by simpa using h2) fun i hi hi' => ?_
  rw [h3 i (by omega) hi]
  simp

/-! ### Calibration -/

theorem gaussNLL_mean (a m : ℝ) {s : ℝ} (hs : 0 < s) :
    gaussNLL a a s ≤ gaussNLL a m s ∧ (gaussNLL a a s = gaussNLL a m s ↔ a = m) := by
  unfold gaussNLL
  have h : (0 : ℝ) < 2 * s ^ 2 := by positivity
  have h0 : (a - a) ^ 2 / (2 * s ^ 2) = 0 := by simp
  have h1 : 0 ≤ (a - m) ^ 2 / (2 * s ^ 2) := by positivity
  refine ⟨by linarith, ?_, ?_⟩
  · intro e
    have : (a - m) ^ 2 / (2 * s ^ 2) = 0 := by linarith
    rw [div_eq_zero_iff] at this
    rcases this with h | h
    · have := pow_eq_zero_iff (n := 2) (by norm_num) |>.1 h; linarith
    · linarith
  · rintro rfl; rfl

/-- `log s + v / (2 s^2)` is least, and only there, at `s = sqrt v`. -/
theorem scale_opt {v s : ℝ} (hv : 0 < v) (hs : 0 < s) :
    Real.log (Real.sqrt v) + v / (2 * Real.sqrt v ^ 2) ≤ Real.log s + v / (2 * s ^ 2) ∧
    (Real.log (Real.sqrt v) + v / (2 * Real.sqrt v ^ 2) = Real.log s + v / (2 * s ^ 2) ↔ Real.sqrt v = s) := by
  have ht : 0 < v / s ^ 2 := by positivity
  have hlog : Real.log (v / s ^ 2) = Real.log v - 2 * Real.log s := by
    rw [Real.log_div hv.ne' (by positivity), Real.log_pow]; push_cast; ring
  have e1 : Real.log (Real.sqrt v) + v / (2 * Real.sqrt v ^ 2) = Real.log v / 2 + 1 / 2 := by
    rw [Real.log_sqrt hv.le, Real.sq_sqrt hv.le]
    congr 1
    field_simp
  have e2 : v / (2 * s ^ 2) = v / s ^ 2 / 2 := by field_simp
  rw [e1, e2]
  have key := Real.log_le_sub_one_of_pos ht
  refine ⟨by linarith, ?_, ?_⟩
  · intro e
    by_contra hne
    have h1 : v / s ^ 2 ≠ 1 := by
      intro h
      rw [div_eq_one_iff_eq (by positivity)] at h
      apply hne
      rw [h, Real.sqrt_sq hs.le]
    have := Real.log_lt_sub_one_of_pos ht h1
    linarith
  · rintro rfl
    rw [Real.sq_sqrt hv.le, div_self hv.ne', Real.log_sqrt hv.le]

theorem gaussNLL_scale {a m s : ℝ} (h : a ≠ m) (hs : 0 < s) :
    gaussNLL a m |a - m| ≤ gaussNLL a m s ∧ (gaussNLL a m |a - m| = gaussNLL a m s ↔ |a - m| = s) := by
  have hv : 0 < (a - m) ^ 2 := by
    have := sub_ne_zero.2 h
    positivity
  obtain ⟨k1, k2⟩ := scale_opt hv hs
  rw [Real.sqrt_sq_eq_abs] at k1 k2
  unfold gaussNLL
  refine ⟨by linarith, ⟨fun e => k2.1 (by linarith), fun e => ?_⟩⟩
  rw [e]

/-- **C86, the mean.**  Whatever the standard deviations, predicting the targets as means gives the least log loss at every
sample, and a larger loss wherever another mean is predicted. -/
theorem C86_mean {ys ms ss : List ℝ} (hne : ys ≠ []) (h1 : ms.length = ys.length) (h2 : ss.length = ys.length)
    (hpos : ∀ s ∈ ss, 0 < s) : ∃ L L' : List ℝ,
      Regr.logLoss (realArr ys) (realArr ms) (realArr ss) = .ok (finVec L) ∧
      Regr.logLoss (realArr ys) (realArr ys) (realArr ss) = .ok (finVec L') ∧ L.length = ys.length ∧ L'.length = ys.length ∧
      ∀ i (hi : i < L.length) (hi' : i < L'.length), L'[i] ≤ L[i] ∧ (L'[i] = L[i] ↔ ys[i]? = ms[i]?) := by
  obtain ⟨L, a1, a2, a3⟩ := logLoss_realArr hne h1 h2 hpos
  obtain ⟨L', b1, b2, b3⟩ := logLoss_realArr hne rfl h2 hpos
  refine ⟨L, L', a1, b1, a2, b2, fun i hi hi' => ?_⟩
  have hy : i < ys.length := by omega
  have hm : i < ms.length := by omega
  have hs : i < ss.length := by omega
  rw [a3 i hy hi, b3 i hy hi', List.getElem?_eq_getElem hy, List.getElem?_eq_getElem hm, Option.some.injEq]
  exact gaussNLL_mean _ _ (hpos _ (List.getElem_mem hs))

/-- **C86, the standard deviation.**  Where the mean is off, the size of the error is the standard deviation with the
least log loss, and the only one. -/
theorem C86_scale {ys ms ss : List ℝ} (hne : ys ≠ []) (h1 : ms.length = ys.length) (h2 : ss.length = ys.length)
    (hpos : ∀ s ∈ ss, 0 < s) (hoff : ∀ i, i < ys.length → ys[i]? ≠ ms[i]?) : ∃ L L' : List ℝ,
      Regr.logLoss (realArr ys) (realArr ms) (realArr ss) = .ok (finVec L) ∧
      Regr.logLoss (realArr ys) (realArr ms) (realArr (List.zipWith (fun (a m : ℝ) => |a - m|) ys ms)) = .ok (finVec L') ∧
      L.length = ys.length ∧ L'.length = ys.length ∧
      ∀ i (hi : i < L.length) (hi' : i < L'.length), L'[i] ≤ L[i] ∧
        (L'[i] = L[i] ↔ ∃ a m, ys[i]? = some a ∧ ms[i]? = some m ∧ ss[i]? = some |a - m|) := by
  have hoff' : ∀ i (hy : i < ys.length) (hm : i < ms.length), ys[i] ≠ ms[i] := by
    intro i hy hm e
    exact hoff i hy (by rw [List.getElem?_eq_getElem hy, List.getElem?_eq_getElem hm, e])
  have h3 : (List.zipWith (fun (a m : ℝ) => |a - m|) ys ms).length = ys.length := by
    rw [List.length_zipWith]; omega
  obtain ⟨L, a1, a2, a3⟩ := logLoss_realArr hne h1 h2 hpos
  obtain ⟨L', b1, b2, b3⟩ := logLoss_realArr hne h1 h3 (by
    intro s hs
    obtain ⟨i, hi, rfl⟩ := List.getElem_of_mem hs
    rw [List.getElem_zipWith]
    exact abs_pos.2 (sub_ne_zero.2 (hoff' i (by omega) (by omega))))
  refine ⟨L, L', a1, b1, a2, b2, fun i hi hi' => ?_⟩
  have hy : i < ys.length := by omega
  have hm : i < ms.length := by omega
  have hs : i < ss.length := by omega
  rw [a3 i hy hi, b3 i hy hi', List.getElem_zipWith, List.getElem?_eq_getElem hy, List.getElem?_eq_getElem hm,
    List.getElem?_eq_getElem hs]
  obtain ⟨k1, k2⟩ := gaussNLL_scale (hoff' i hy hm) (hpos _ (List.getElem_mem hs))
  refine ⟨k1, k2.trans ?_⟩
  simp [eq_comm]

/-! ### `JustNoise` -/

/-- **C87, acceptance.**  `fit` accepts exactly vectors with at least two entries; otherwise it raises AssertionError. -/
theorem C87_accepts (y : Arr) :
    ((∃ r, Regr.justNoiseFit y = .ok r) ↔ y.shape.length = 1 ∧ 2 ≤ y.data.length) ∧
    (¬ (y.shape.length = 1 ∧ 2 ≤ y.data.length) → Regr.justNoiseFit y = .error .assertion) := by
  unfold Regr.justNoiseFit
  simp only [pyAssert_bind, decide_eq_true_eq]
  split_ifs with h1 h2
  · exact ⟨⟨fun _ => ⟨h1, h2⟩, fun _ => ⟨_, rfl⟩⟩, fun h => absurd ⟨h1, h2⟩ h⟩
  · exact ⟨⟨fun ⟨_, h⟩ => (by cases h), fun h => absurd h.2 h2⟩, fun _ => rfl⟩
  · exact ⟨⟨fun ⟨_, h⟩ => (by cases h), fun h => absurd h.1 h1⟩, fun _ => rfl⟩

theorem npStd_real {xs : List ℝ} (hne : xs ≠ []) : npStd (xs.map Flt.fin) = .fin (Real.sqrt (popVar xs)) := by
  unfold npStd
  rw [Flt.mean_fin xs hne, List.map_map]
  have : (xs.map ((fun (v : Flt ℝ) => (Paper.fabs (v.sub (Flt.fin (xs.sum / xs.length)))).mul
      (Paper.fabs (v.sub (Flt.fin (xs.sum / xs.length))))) ∘ Flt.fin)) =
      (xs.map fun (x : ℝ) => (x - avg xs) ^ 2).map Flt.fin := by
    rw [List.map_map]
    refine List.map_congr_left fun x _ => ?_
    simp only [Function.comp, Flt.sub_fin, Paper.fabs, Flt.mul_fin]
    rw [abs_mul_abs_self, ← sq]
    rfl
  rw [this, Flt.mean_fin _ (by simpa using hne), List.length_map]
  have h0 : ¬ (sqDev xs / (xs.length : ℝ) < 0) := not_lt.2 (div_nonneg (sqDev_nonneg xs) (Nat.cast_nonneg _))
  show fsqrt (.fin (sqDev xs / (xs.length : ℝ))) = _
  simp only [fsqrt, if_neg h0]
  rfl

/-- **C87, value.**  `fit` computes the mean and the population standard deviation of the targets. -/
theorem C87_fit {xs : List ℝ} (h : 2 ≤ xs.length) :
    Regr.justNoiseFit (realArr xs) = .ok (.fin (avg xs), .fin (Real.sqrt (popVar xs))) := by
  have hne : xs ≠ [] := by rintro rfl; simp at h
  unfold Regr.justNoiseFit
  rw [pyAssert_bind, if_pos (by simp [realArr]), pyAssert_bind, if_pos (by simpa [realArr] using h)]
  have e : (realArr xs).data = xs.map Flt.fin := rfl
  rw [e, npStd_real hne, Flt.mean_fin xs hne]
  rfl

theorem popVar_eq_zero {xs : List ℝ} (hne : xs ≠ []) : popVar xs = 0 ↔ ∃ c, ∀ x ∈ xs, x = c := by
  have hn : (0 : ℝ) < xs.length := by exact_mod_cast List.length_pos_iff.2 hne
  unfold popVar
  rw [div_eq_zero_iff, or_iff_left hn.ne', sqDev_eq_zero]
  constructor
  · exact fun h => ⟨_, h⟩
  · rintro ⟨c, h⟩ x hx
    have : xs = List.replicate xs.length c := List.eq_replicate_of_mem h
    rw [h x hx, this]
    unfold avg
    rw [List.sum_replicate, List.length_replicate, nsmul_eq_mul]
    field_simp

theorem popVar_nonneg (xs : List ℝ) : 0 ≤ popVar xs := div_nonneg (sqDev_nonneg xs) (Nat.cast_nonneg _)

/-- **C87, prediction.**  Trained on numbers, `JustNoise` predicts the mean and the standard deviation of the targets
for every test point. -/
theorem C87_predict {D : Type} (xTrain xTest : Features D) {xs : List ℝ} (h : 2 ≤ xs.length) {n : Nat} {rest : List Nat}
    (hx : xTest.shape = n :: rest) :
    Regr.trainPredict xTrain (realArr xs) xTest Regr.justNoise =
      .ok (constArr n (avg xs), constArr n (Real.sqrt (popVar xs))) := by
  unfold Regr.trainPredict Regr.justNoise
  rw [C87_fit h, ok_bind]
  simp only [pure_eq_ok, ok_bind]
  unfold Regr.predictOf
  simp only [shapeAt, hx, List.getElem?_cons_zero, ok_bind, pure_eq_ok, Regr.justNoisePredict]
  simp [constArr, Arr.vec]

/-- **C87, degenerate targets.**  The predicted standard deviation is 0 exactly if all targets are equal.  The losses
reject the predictions if and only if that is so: for all targets of test points they raise AssertionError then, and
succeed otherwise. -/
theorem C87_degenerate {D : Type} (xTrain xTest : Features D) {xs : List ℝ} (h : 2 ≤ xs.length) {rest : List Nat}
    {ys : List ℝ} (hne : ys ≠ []) (hx : xTest.shape = ys.length :: rest) {mu std : Arr}
    (hp : Regr.trainPredict xTrain (realArr xs) xTest Regr.justNoise = .ok (mu, std)) :
    ((∀ v ∈ std.data, v = .fin 0) ↔ ∃ c, ∀ x ∈ xs, x = c) ∧
    ∀ loss ∈ [Regr.squareLoss, absLoss, Regr.logLoss],
      ((∃ c, ∀ x ∈ xs, x = c) → loss (realArr ys) mu std = .error .assertion) ∧
      ((¬ ∃ c, ∀ x ∈ xs, x = c) → ∃ L, loss (realArr ys) mu std = .ok L) := by
  rw [C87_predict xTrain xTest h hx] at hp
  simp only [Except.ok.injEq, Prod.mk.injEq] at hp
  obtain ⟨rfl, rfl⟩ := hp
  have hxs : xs ≠ [] := by rintro rfl; simp at h
  have hn : ys.length ≠ 0 := by simpa using hne
  have hz : Real.sqrt (popVar xs) = 0 ↔ ∃ c, ∀ x ∈ xs, x = c := by
    rw [Real.sqrt_eq_zero (popVar_nonneg xs), popVar_eq_zero hxs]
  refine ⟨?_, fun loss hl => ⟨fun hc => ?_, fun hc => ?_⟩⟩
  · rw [← hz]
    simp [constArr, hn]
  · rw [C85_reject _ loss hl, if_pos (by simp [realArr])]
    rintro ⟨n, hi⟩
    have := hi.positive (.fin (Real.sqrt (popVar xs))) (by simp [constArr, hn])
    rw [hz.2 hc] at this
    exact lt_irrefl _ this
  · have hpos : 0 < Real.sqrt (popVar xs) := lt_of_le_of_ne (Real.sqrt_nonneg _) fun e => hc (hz.1 e.symm)
    have hi := realArr_input (ys := ys) (ms := List.replicate ys.length (avg xs))
      (ss := List.replicate ys.length (Real.sqrt (popVar xs))) hne (by simp) (by simp)
      (fun s hs => by rw [List.eq_of_mem_replicate hs]; exact hpos)
    rw [constArr_eq, constArr_eq]
    simp only [List.mem_cons, List.not_mem_nil, or_false] at hl
    rcases hl with rfl | rfl | rfl
    · obtain ⟨L, e, -⟩ := C85_square hi (realArr_ok _) (realArr_ok _) (realArr_ok _); exact ⟨L, e⟩
    · obtain ⟨L, e, -⟩ := C85_abs hi (realArr_ok _) (realArr_ok _) (realArr_ok _); exact ⟨L, e⟩
    · obtain ⟨L, e, -⟩ := C85_log hi (realArr_ok _) (realArr_ok _) (realArr_ok _); exact ⟨L, e⟩

/-! ### `JustNoise` is the best constant prediction on its training sample -/

theorem sum_sq_shift (xs : List ℝ) (hne : xs ≠ []) (m : ℝ) :
    (xs.map fun (x : ℝ) => (x - m) ^ 2).sum = sqDev xs + (xs.length : ℝ) * (avg xs - m) ^ 2 := by
  have hn : (xs.length : ℝ) ≠ 0 := by exact_mod_cast (List.length_pos_iff.2 hne).ne'
  have hs : xs.sum = (xs.length : ℝ) * avg xs := by unfold avg; field_simp
  have gen : ∀ (l : List ℝ) (c : ℝ), (l.map fun (x : ℝ) => (x - c) ^ 2).sum =
      (l.map fun (x : ℝ) => x ^ 2).sum - 2 * c * l.sum + (l.length : ℝ) * c ^ 2 := by
    intro l c
    induction l with
    | nil => simp
    | cons a l ih => simp only [List.map_cons, List.sum_cons, ih, List.length_cons]; push_cast; ring
  unfold sqDev
  rw [gen, gen, hs]
  ring

theorem avg_gaussNLL {xs : List ℝ} (hne : xs ≠ []) (m s : ℝ) (hs : 0 < s) :
    avg (xs.map fun (a : ℝ) => gaussNLL a m s) =
      Real.log s + Real.log (2 * Real.pi) / 2 + (popVar xs + (avg xs - m) ^ 2) / (2 * s ^ 2) := by
  have hn : (xs.length : ℝ) ≠ 0 := by exact_mod_cast (List.length_pos_iff.2 hne).ne'
  have e : (xs.map fun (a : ℝ) => gaussNLL a m s).sum = (xs.length : ℝ) * (Real.log s + Real.log (2 * Real.pi) / 2) +
      (xs.map fun (x : ℝ) => (x - m) ^ 2).sum / (2 * s ^ 2) := by
    clear hne hn
    unfold gaussNLL
    induction xs with
    | nil => simp
    | cons a l ih => simp only [List.map_cons, List.sum_cons, ih, List.length_cons]; push_cast; ring
  unfold avg
  rw [List.length_map, e, sum_sq_shift xs hne]
  unfold popVar avg
  field_simp

/-- **C86, calibration on a sample.**  Of all constant predictions for a sample that is not constant, the one of
`JustNoise` fitted to that sample has the least mean log loss, and no other prediction has the same mean log loss. -/
theorem C86_sample {xs : List ℝ} (h : 2 ≤ xs.length) (hc : ¬ ∃ c, ∀ x ∈ xs, x = c) (m s : ℝ) (hs : 0 < s) :
    ∃ mu std L L', Regr.justNoiseFit (realArr xs) = .ok (.fin mu, .fin std) ∧
      Regr.logLoss (realArr xs) (constArr xs.length m) (constArr xs.length s) = .ok (finVec L) ∧
      Regr.logLoss (realArr xs) (constArr xs.length mu) (constArr xs.length std) = .ok (finVec L') ∧
      avg L' ≤ avg L ∧ (avg L' = avg L ↔ mu = m ∧ std = s) := by
  have hne : xs ≠ [] := by rintro rfl; simp at h
  have hv : 0 < popVar xs := lt_of_le_of_ne (popVar_nonneg xs) fun e => hc ((popVar_eq_zero hne).1 e.symm)
  have hsq := Real.sqrt_pos.2 hv
  refine ⟨avg xs, Real.sqrt (popVar xs), _, _, C87_fit h, logLoss_constArr hne m hs, logLoss_constArr hne _ hsq, ?_⟩
  rw [avg_gaussNLL hne _ _ hs, avg_gaussNLL hne _ _ hsq]
  obtain ⟨k1, k2⟩ := scale_opt hv hs
  have h2 : (0 : ℝ) < 2 * s ^ 2 := by positivity
  have e1 : (popVar xs + (avg xs - m) ^ 2) / (2 * s ^ 2) = popVar xs / (2 * s ^ 2) + (avg xs - m) ^ 2 / (2 * s ^ 2) := by
    rw [add_div]
  have e2 : (popVar xs + (avg xs - avg xs) ^ 2) = popVar xs := by ring
  have h3 : 0 ≤ (avg xs - m) ^ 2 / (2 * s ^ 2) := by positivity
  rw [e1, e2]
  refine ⟨by linarith, ?_, ?_⟩
  · intro e
    have e3 : (avg xs - m) ^ 2 / (2 * s ^ 2) = 0 := by linarith
    have e4 : (avg xs - m) ^ 2 = 0 := by
      rw [div_eq_zero_iff] at e3; exact e3.resolve_right h2.ne'
    have e5 := pow_eq_zero_iff (n := 2) (by norm_num) |>.1 e4
    exact ⟨by linarith, k2.1 (by linarith)⟩
  · rintro ⟨rfl, rfl⟩
    ring

/-- **C86, square loss on a sample.**  The mean that `JustNoise` fits has the least mean square loss of all constant
predictions, and no other has the same. -/
theorem C86_square {xs : List ℝ} (h : 2 ≤ xs.length) (m s t : ℝ) (hs : 0 < s) (ht : 0 < t) :
    ∃ mu std L L', Regr.justNoiseFit (realArr xs) = .ok (.fin mu, .fin std) ∧
      squareLoss (realArr xs) (constArr xs.length m) (constArr xs.length s) = .ok (finVec L) ∧
      squareLoss (realArr xs) (constArr xs.length mu) (constArr xs.length t) = .ok (finVec L') ∧
      avg L' = std ^ 2 ∧ avg L' ≤ avg L ∧ (avg L' = avg L ↔ mu = m) := by
  have hne : xs ≠ [] := by rintro rfl; simp at h
  have sq : ∀ m s : ℝ, 0 < s → squareLoss (realArr xs) (constArr xs.length m) (constArr xs.length s) =
      .ok (finVec (xs.map fun (a : ℝ) => (a - m) ^ 2)) := by
    intro m s hs
    have hi := realArr_input (ys := xs) (ms := List.replicate xs.length m) (ss := List.replicate xs.length s) hne
      (by simp) (by simp) (fun s' hs' => by rw [List.eq_of_mem_replicate hs']; exact hs)
    rw [constArr_eq, constArr_eq]
    obtain ⟨L, e, hL⟩ := C85_square hi (realArr_ok _) (realArr_ok _) (realArr_ok _)
    rw [e]
    congr 1
    refine List.ext_getElem? fun i => ?_
    by_cases hi : i < xs.length
    · rw [hL.2 i xs[i] m s (by simp [realArr, hi]) (by simp [realArr, hi]) (by simp [realArr, hi])]
      simp [finVec, hi]
    · rw [List.getElem?_eq_none (by rw [hL.1]; simpa [realArr] using hi),
        List.getElem?_eq_none (by simpa [finVec] using hi)]
  have hn : (0 : ℝ) < xs.length := by exact_mod_cast List.length_pos_iff.2 hne
  have av : ∀ m : ℝ, avg (xs.map fun (a : ℝ) => (a - m) ^ 2) = popVar xs + (avg xs - m) ^ 2 := by
    intro m
    rw [avg, List.length_map, sum_sq_shift xs hne]
    unfold popVar
    field_simp
  refine ⟨_, _, _, _, C87_fit h, sq m s hs, sq _ t ht, ?_⟩
  rw [av, av, Real.sq_sqrt (popVar_nonneg xs)]
  refine ⟨by ring, by nlinarith [sq_nonneg (avg xs - m)], ?_, ?_⟩
  · intro e
    have : (avg xs - m) ^ 2 = 0 := by nlinarith
    have := pow_eq_zero_iff (n := 2) (by norm_num) |>.1 this
    linarith
  · rintro rfl; rfl

/-! ### Examples -/

example : ∃ L L' : List ℝ, Regr.logLoss (realArr [1, 2]) (realArr [1, 0]) (realArr [1, 3]) = .ok (finVec L) ∧
    Regr.logLoss (realArr [1, 2]) (realArr [1, 2]) (realArr [1, 3]) = .ok (finVec L') ∧
    L'[1]? ≠ L[1]? ∧ L'[0]? = L[0]? := by
  obtain ⟨L, L', h1, h2, h3, h4, h5⟩ := C86_mean (ys := [1, 2]) (ms := [1, 0]) (ss := [1, 3]) (by simp) rfl rfl (by simp)
  have l1 : L.length = 2 := h3
  have l2 : L'.length = 2 := h4
  refine ⟨L, L', h1, h2, ?_, ?_⟩
  · rw [List.getElem?_eq_getElem (by omega), List.getElem?_eq_getElem (by omega), ne_eq, Option.some.injEq,
      (h5 1 (by omega) (by omega)).2]
    simp
  · rw [List.getElem?_eq_getElem (by omega), List.getElem?_eq_getElem (by omega), Option.some.injEq,
      (h5 0 (by omega) (by omega)).2]
    rfl

/-- The targets of the example below are not constant. -/
theorem notConst_example : ¬ ∃ c : ℝ, ∀ x ∈ [(0 : ℝ), 2], x = c := by
  rintro ⟨c, h⟩
  have h1 := h 0 (by simp)
  have h2 := h 2 (by simp)
  linarith

example : ∃ mu std L L', Regr.justNoiseFit (realArr [0, 2]) = .ok (.fin mu, .fin std) ∧
    Regr.logLoss (realArr [0, 2]) (constArr 2 1) (constArr 2 3) = .ok (finVec L) ∧
    Regr.logLoss (realArr [0, 2]) (constArr 2 mu) (constArr 2 std) = .ok (finVec L') ∧ avg L' ≤ avg L := by
  obtain ⟨mu, std, L, L', h1, h2, h3, h4, -⟩ := C86_sample (xs := [0, 2]) (by simp) notConst_example 1 3 (by norm_num)
  exact ⟨mu, std, L, L', h1, h2, h3, h4⟩

example : Regr.justNoiseFit (realArr [0, 2]) = .ok (.fin 1, .fin 1) := by
  rw [C87_fit (by simp)]
  simp only [avg, popVar, sqDev]
  norm_num

example : Regr.justNoiseFit (realArr [3]) = .error .assertion := (C87_accepts _).2 (by simp [realArr])

/-- Constant targets give predictions that every loss rejects. -/
example (xTrain : Features Unit) : ∃ mu std,
    Regr.trainPredict xTrain (realArr [5, 5]) ⟨[1, 1], 'f', ()⟩ Regr.justNoise = .ok (mu, std) ∧
    Regr.logLoss (realArr [5]) mu std = .error .assertion := by
  have h := C87_predict xTrain ⟨[1, 1], 'f', ()⟩ (xs := [5, 5]) (by simp) (n := 1) (rest := [1]) rfl
  exact ⟨_, _, h, ((C87_degenerate xTrain ⟨[1, 1], 'f', ()⟩ (xs := [5, 5]) (by simp) (rest := [1]) (ys := [5]) (by simp)
    rfl h).2 _ (by simp)).1 ⟨5, by simp⟩⟩

end Mlp.Props
