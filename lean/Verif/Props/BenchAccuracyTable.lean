import Verif.Props.BenchAccuracy

/-! # Property C126: accuracy of the tables -/

namespace Mlp.Props
open Mlp.Util Mlp.Frame Mlp.PerfR Mlp.PaperR Mlp.CurveR Mlp.LossR Mlp.Spec Mlp.Lemmas Mlp.Round Mlp.Classif Mlp.Paper

variable {L : Lib ℝ} {u : ℝ} {dotR : List ℝ → List ℝ → ℝ}

/-! ## Normalising once and twice -/

theorem logTotal_abs {r : List (Flt ℝ)} (h : Proper r) {B : ℝ} (hb : BoundedRow B r) : |logTotal r| ≤ B + (r.length - 1) := by
  obtain ⟨h1, h2⟩ := logTotal_bounds h
  obtain ⟨x, hx⟩ := h.2
  have hn : (1 : ℝ) ≤ r.length := by exact_mod_cast List.length_pos_of_mem hx
  have h3 := h2 B fun x hx => (abs_le.1 (hb x hx)).2
  have h4 := h1 x hx
  have h5 := (abs_le.1 (hb x hx)).1
  rw [abs_le]
  constructor <;> linarith

/-- One normalisation. -/
theorem normalize_close (hL : GoodLib L) (hE : GoodExpLog L) (hA : AccurateLib u L) {p : Mat ℝ} (hc : 1 ≤ p.ncols)
    (hp : ∀ r ∈ p.rows, Proper r ∧ r.length = p.ncols) {B : ℝ} (hb : ∀ r ∈ p.rows, BoundedRow B r) (hn : p.ncols * u ≤ 1 / 100) :
    ∃ q, normalizeRowsR L p = .ok q ∧ q.ncols = p.ncols ∧ List.Forall₂ (CloseRow (u * (4 * B + 10 * p.ncols))) p.rows q.rows := by
  obtain ⟨q, hq, h1, h2⟩ := C125_normalize hL hE hA hc hp hn
  refine ⟨q, hq, h1, forall₂_left_mem h2 fun r r' hr hcr => ?_⟩
  obtain ⟨hpr, hlen⟩ := hp r hr
  refine forall₂_left_mem hcr fun v w hv h => ?_
  rcases h with h | ⟨x, y, rfl, rfl, h⟩
  · exact .inl h
  · refine .inr ⟨x, y, rfl, rfl, h.trans (mul_le_mul_of_nonneg_left ?_ hA.nonneg)⟩
    have h3 := logTotal_abs hpr (hb r hr)
    have h4 := hb r hr x hv
    have h5 := abs_sub x (logTotal r)
    rw [hlen] at h3
    linarith

/-- A row that is normalised up to `T` has a total of 1 up to `T` in the logarithm. -/
theorem CloseRow.logTotal_le {T : ℝ} {r r' : List (Flt ℝ)} (hr : Proper r) (h : CloseRow T r r') : |logTotal r'| ≤ T := by
  have hl : (probs r').length = (shares r).length := by rw [probs_length, shares_length, h.length_eq]
  have hone : ∑ k ∈ Finset.range (shares r).length, pr (shares r) k = 1 := by rw [← sum_range]; exact (shares_probVec hr).2
  have hk : ∀ k ∈ Finset.range (shares r).length, Real.exp (-T) * pr (shares r) k ≤ pr (probs r') k ∧
      pr (probs r') k ≤ Real.exp T * pr (shares r) k := by
    intro k hk
    rw [Finset.mem_range, shares_length] at hk
    rcases h.get hk with ⟨a, b⟩ | ⟨x, y, a, b, c⟩
    · rw [share_ninf a, pr_probs, List.getD_eq_getElem?_getD, b]
      simp [Spec.prob]
    · rw [share_fin hr a, pr_probs, List.getD_eq_getElem?_getD, b]
      simp only [Option.getD_some, Spec.prob]
      have hx := abs_le.1 c
      rw [← Real.exp_add, ← Real.exp_add, Real.exp_le_exp, Real.exp_le_exp]
      constructor <;> linarith
  have h1 : Real.exp (-T) ≤ (probs r').sum := by
    rw [sum_range, hl]
    calc Real.exp (-T) = Real.exp (-T) * ∑ k ∈ Finset.range (shares r).length, pr (shares r) k := by rw [hone, mul_one]
      _ ≤ _ := by rw [Finset.mul_sum]; exact Finset.sum_le_sum fun k h => (hk k h).1
  have h2 : (probs r').sum ≤ Real.exp T := by
    rw [sum_range, hl]
    calc _ ≤ Real.exp T * ∑ k ∈ Finset.range (shares r).length, pr (shares r) k := by
          rw [Finset.mul_sum]; exact Finset.sum_le_sum fun k h => (hk k h).2
      _ = Real.exp T := by rw [hone, mul_one]
  have hpos : 0 < (probs r').sum := lt_of_lt_of_le (Real.exp_pos _) h1
  unfold logTotal
  rw [abs_le]
  exact ⟨(Real.le_log_iff_exp_le hpos).2 h1, (Real.log_le_iff_le_exp hpos).2 h2⟩

/-- Normalising twice. -/
theorem CloseRow.trans {T T' : ℝ} {r r' r'' : List (Flt ℝ)} (hr : Proper r) (h : CloseRow T r r') (h' : CloseRow T' r' r'') :
    CloseRow (2 * T + T') r r'' := by
  have hs := h.logTotal_le hr
  refine List.forall₂_iff_get.2 ⟨h.length_eq.trans h'.length_eq, fun i hi hi'' => ?_⟩
  have hi' : i < r'.length := by rw [← h.length_eq]; exact hi
  have a := (List.forall₂_iff_get.1 h).2 i hi hi'
  have b := (List.forall₂_iff_get.1 h').2 i hi' hi''
  simp only [List.get_eq_getElem] at a b ⊢
  rcases a with ⟨a1, a2⟩ | ⟨x, y, a1, a2, a3⟩
  · rcases b with ⟨b1, b2⟩ | ⟨x', y', b1, b2, b3⟩
    · exact .inl ⟨a1, b2⟩
    · rw [a2] at b1; cases b1
  · rcases b with ⟨b1, b2⟩ | ⟨x', y', b1, b2, b3⟩
    · rw [a2] at b1; cases b1
    · rw [a2] at b1
      cases b1
      refine .inr ⟨x, y', a1, b2, ?_⟩
      rw [show y' - (x - logTotal r) = (y' - (y - logTotal r')) + ((y - (x - logTotal r)) - logTotal r') by ring]
      have e1 := abs_add_le (y' - (y - logTotal r')) ((y - (x - logTotal r)) - logTotal r')
      have e2 := abs_sub (y - (x - logTotal r)) (logTotal r')
      linarith

/-- C126 for two samples and three labels, one of them impossible. -/
example (rescale : Bool) : ∃ q l, normalizeRowsR doubleLib threeRows = .ok q ∧ brierLossR doubleLib rescale ⟨'i', [1, 0]⟩ q = .ok l ∧
    PerSample (fun r k v => ∃ x : ℝ, v = .fin x ∧ |x - brierScale rescale 3 * brierAt (shares r) k| ≤ brierScale rescale 3 / 10 ^ 13) ⟨'i', [1, 0]⟩ threeRows l := by
  obtain ⟨q, h1, h2, h3⟩ := normalize_close doubleLib_good doubleLib_expLog doubleLib_accurate (p := threeRows) (B := 2) (by simp [threeRows])
    (fun r hr => ⟨threeRows_proper r hr, by
      simp only [threeRows, List.mem_cons, List.not_mem_nil, or_false] at hr
      rcases hr with rfl | rfl <;> rfl⟩) (by
      intro r hr x hx
      simp only [threeRows, List.mem_cons, List.not_mem_nil, or_false] at hr
      rcases hr with rfl | rfl <;> simp at hx
      · rcases hx with rfl | rfl <;> norm_num [abs_div]
      · rw [hx]; norm_num) (by norm_num [threeRows])
  obtain ⟨q', e1, -, e3⟩ := C120_normalize doubleLib_good doubleLib_expLog (p := threeRows) (by simp [threeRows]) threeRows_proper threeRows_float
  rw [h1, Except.ok.injEq] at e1
  subst e1
  have hq : q.ncols = 3 := h2
  have hl : q.rows.length = 2 := by rw [← e3.length_eq]; rfl
  have hw : ∀ r ∈ q.rows, r.length = 3 := forall₂_right_mem (forall₂_left_mem e3 fun r r' hr g => by
    rw [g.1]
    simp only [threeRows, List.mem_cons, List.not_mem_nil, or_false] at hr
    rcases hr with rfl | rfl <;> rfl) fun _ _ g => g
  obtain ⟨-, ⟨l, f1, f2⟩, -⟩ := C126_losses doubleLib_good doubleLib_expLog doubleLib_accurate (y := ⟨'i', [1, 0]⟩) (p := threeRows) (q := q)
    ⟨.inr rfl, by omega, by rintro e; rw [e] at hl; simp at hl, by rw [hl]; rfl, by rw [hq]; exact hw, by rw [hq]; simp⟩ threeRows_proper
    (forall₂_right_mem e3 fun _ _ g => ⟨g.2.1, g.2.2.1, g.2.2.2.1⟩) (by norm_num [threeRows]) (by norm_num [threeRows]) h3 (by norm_num [hq]) rescale
  refine ⟨q, l, h1, f1, perSample_mono f2 ?_⟩
  rintro r - k v ⟨x, hv, hx⟩
  refine ⟨x, hv, ?_⟩
  rw [hq] at hx
  refine hx.trans ?_
  have hb := brierScale_pos rescale 3
  rw [div_eq_mul_inv]
  exact mul_le_mul_of_nonneg_left (by norm_num [threeRows]) hb.le

/-! ## Averages -/

/-- The average over the samples of an exact loss. -/
noncomputable def avgExact (f : List (Flt ℝ) → Nat → ℝ) (y : LabelVec) (p : Mat ℝ) : ℝ :=
  avg (List.zipWith (fun r (k : Int) => f r k.toNat) p.rows y.vals)

theorem sum_close {xs es : List ℝ} {d : ℝ} (h : List.Forall₂ (fun x e => |x - e| ≤ d) xs es) :
    |xs.sum - es.sum| ≤ xs.length * d := by
  induction h with
  | nil => simp
  | @cons a b l l' h _ ih =>
    rw [List.sum_cons, List.sum_cons, List.length_cons, show a + l.sum - (b + l'.sum) = (a - b) + (l.sum - l'.sum) by ring]
    push_cast
    have := abs_add_le (a - b) (l.sum - l'.sum)
    linarith

theorem mean_close {xs es : List ℝ} {d : ℝ} (h : List.Forall₂ (fun x e => |x - e| ≤ d) xs es) (hne : xs ≠ []) (he : ∀ e ∈ es, 0 ≤ e)
    (hd : 0 ≤ d) {c m : ℝ} (hc0 : 0 ≤ c) (hc : c ≤ 1) (hm : |m - avg xs| ≤ c * avgAbs xs) : |m - avg es| ≤ c * avg es + 2 * d := by
  have hl : (0 : ℝ) < xs.length := by exact_mod_cast List.length_pos_iff.2 hne
  have h1 : |avg xs - avg es| ≤ d := by
    unfold avg
    rw [← h.length_eq, ← sub_div, abs_div, abs_of_pos hl, div_le_iff₀ hl, mul_comm d]
    exact sum_close h
  have h2 : avgAbs xs ≤ avg es + d := by
    have h3 : List.Forall₂ (fun x e => |x - e| ≤ d) (xs.map fun v => |v|) es := by
      rw [List.forall₂_map_left_iff]
      have : ∀ (xs es : List ℝ), (∀ e ∈ es, 0 ≤ e) → List.Forall₂ (fun x e => |x - e| ≤ d) xs es →
          List.Forall₂ (fun x e => abs (|x| - e) ≤ d) xs es := by
        intro xs es he h
        induction h with
        | nil => exact .nil
        | @cons a b l l' h _ ih =>
          refine .cons ?_ (ih fun e h => he e (by simp [h]))
          have hb := he b (by simp)
          have := abs_abs_sub_abs_le a b
          rw [abs_of_nonneg hb] at this
          exact this.trans h
      exact this xs es he h
    have h4 := sum_close h3
    rw [List.length_map] at h4
    unfold avgAbs avg
    rw [← h.length_eq, div_add' _ _ _ hl.ne', div_le_div_iff_of_pos_right hl]
    have := (abs_le.1 h4).2
    linarith
  have h3 : c * avgAbs xs ≤ c * (avg es + d) := mul_le_mul_of_nonneg_left h2 hc0
  have h4 := abs_sub_le m (avg xs) (avg es)
  have h5 : c * d ≤ 1 * d := mul_le_mul_of_nonneg_right hc hd
  linarith

/-- From losses of the samples to their average. -/
theorem perSample_mean {y : LabelVec} {p : Mat ℝ} (hl : y.vals.length = p.rows.length) (hne : p.rows ≠ []) (hy : ∀ v ∈ y.vals, 0 ≤ v)
    {f : List (Flt ℝ) → Nat → ℝ} (hf : ∀ (r : List (Flt ℝ)) (k : Nat), r ∈ p.rows → (k : Int) ∈ y.vals → 0 ≤ f r k) {d : ℝ} (hd : 0 ≤ d) {l : List (Flt ℝ)}
    (h : PerSample (fun r k v => ∃ x : ℝ, v = .fin x ∧ |x - f r k| ≤ d) y p l) :
    ∃ xs : List ℝ, l = finVec xs ∧ xs ≠ [] ∧ xs.length = p.rows.length ∧ ∀ c m : ℝ, 0 ≤ c → c ≤ 1 → |m - avg xs| ≤ c * avgAbs xs →
      |m - avgExact f y p| ≤ c * avgExact f y p + 2 * d := by
  have hel : ∀ i (hi : i < l.length), ∃ x : ℝ, l[i] = .fin x ∧ ∃ (h1 : i < p.rows.length) (h2 : i < y.vals.length),
      |x - f p.rows[i] y.vals[i].toNat| ≤ d := by
    intro i hi
    have h1 : i < p.rows.length := by rw [← h.1]; exact hi
    have h2 : i < y.vals.length := by rw [hl]; exact h1
    obtain ⟨k, hk⟩ := Int.eq_ofNat_of_zero_le (hy _ (List.getElem_mem h2))
    obtain ⟨v, e1, x, e2, e3⟩ := h.2 i k _ (List.getElem?_eq_getElem h1) (by rw [List.getElem?_eq_getElem h2, hk])
    rw [List.getElem?_eq_getElem hi, Option.some.injEq] at e1
    refine ⟨x, e1.trans e2, h1, h2, ?_⟩
    rw [hk, Int.toNat_natCast]
    exact e3
  obtain ⟨xs, rfl⟩ := exists_finVec (l := l) (by
    rw [List.all_eq_true]
    intro v hv
    obtain ⟨i, hi, rfl⟩ := List.mem_iff_getElem.1 hv
    obtain ⟨x, e, -⟩ := hel i hi
    rw [e]; rfl)
  have hxl : xs.length = p.rows.length := by simpa [finVec] using h.1
  have hxne : xs ≠ [] := by
    rintro rfl
    exact hne (List.length_eq_zero_iff.1 hxl.symm)
  refine ⟨xs, rfl, hxne, hxl, fun c m hc0 hc hm => ?_⟩
  refine mean_close ?_ hxne ?_ hd hc0 hc hm
  · refine List.forall₂_iff_get.2 ⟨by simp [hxl, hl], fun i hi hi' => ?_⟩
    obtain ⟨x, e, h1, h2, h3⟩ := hel i (by simpa [finVec] using hi)
    simp only [finVec, List.getElem_map, Flt.fin.injEq] at e
    simp only [List.get_eq_getElem, List.getElem_zipWith]
    rw [e]; exact h3
  · intro e he
    obtain ⟨i, hi, rfl⟩ := List.mem_iff_getElem.1 he
    rw [List.getElem_zipWith]
    simp only [List.length_zipWith, lt_min_iff] at hi
    refine hf _ _ (List.getElem_mem hi.1) ?_
    have := hy _ (List.getElem_mem hi.2)
    rw [Int.toNat_of_nonneg this]
    exact List.getElem_mem hi.2

/-! ## The tables -/

/-- The exact losses by name: minus the logarithm of the share of the true label, the rescaled Brier and spherical losses of the shares. -/
noncomputable def stdExact (n : Nat) : List (Str × (List (Flt ℝ) → Nat → ℝ)) :=
  [("NLL".toList, fun r k => -Real.log (pr (shares r) k)), ("Brier".toList, fun r k => brierScale true n * brierAt (shares r) k),
   ("sphere".toList, fun r k => sphereAt true n (shares r) k)]

/-- The columns of one method, if its normalised predictions are those of `src` up to `T`. -/
theorem method_columns (hL : GoodLib L) (hE : GoodExpLog L) (hA : AccurateLib u L) {t : PredTable ℝ} (ht : GoodTable t) (hM : t.methods.Nodup)
    (hf : FloatPreds L.rnd t) {y : LabelVec} (hy : GoodTestLabels y t.nrows t.labels.length)
    (hn : ∀ k : Nat, k ≤ t.labels.length → L.rnd k = k) (hnu : t.labels.length * u ≤ 1 / 100)
    {tbl : LossTable} (htbl : lossTableR L t y (stdClassLossR L dotR) false = .ok tbl)
    {method : Str} (hm : method ∈ t.methods) {src : Mat ℝ} (hsp : ∀ r ∈ src.rows, Proper r ∧ Flt.ninf ∉ r)
    {T : ℝ} (hT0 : 0 ≤ T) (hT : T ≤ 1 / 50)
    (hsrc : ∀ p q, IsMatrix t method p → normalizeRowsR L p = .ok q → List.Forall₂ (CloseRow T) src.rows q.rows) :
    ∀ e ∈ stdExact t.labels.length, ∃ xs : List ℝ, HasLoss tbl e.1 method (finVec xs) ∧ xs ≠ [] ∧ xs.length = t.nrows ∧
      ∀ c m : ℝ, 0 ≤ c → c ≤ 1 → |m - avg xs| ≤ c * avgAbs xs →
        |m - avgExact e.2 y src| ≤ c * avgExact e.2 y src + (220 * t.labels.length * u + 22 * T) := by
  have hu := hA.nonneg
  have hn0 : (0 : ℝ) ≤ t.labels.length := by positivity
  have hnu0 : 0 ≤ (t.labels.length : ℝ) * u := mul_nonneg hn0 hu
  have hin : ∀ {p q : Mat ℝ}, IsMatrix t method p → normalizeRowsR L p = .ok q → ClassInput y q ∧ q.ncols = t.labels.length ∧ q.rows.length = t.nrows ∧
      (∀ r ∈ q.rows, Proper r ∧ FloatRow L.rnd r ∧ AtMostZero r) := by
    intro p q hp hq
    obtain ⟨g1, g2, g3, g4⟩ := normalised_input hL hE ht hf hy hm hp hq
    exact ⟨g1, g2, g3, forall₂_right_mem g4 fun _ _ g => ⟨g.1, g.2.1, g.2.2.1⟩⟩
  have hnames : ((stdClassLossR L dotR).map fun m => m.1) = ["NLL".toList, "Brier".toList, "sphere".toList, "zero_one".toList] := rfl
  obtain ⟨tbl', h1, -, -, -, -, -, h7⟩ := C121_columns (L := L) ht hM hy.length (metrics := stdClassLossR L dotR) (by simp [stdClassLossR])
    (by rw [hnames]; decide) (by
      intro m hm' method' hmeth p q hp hq
      obtain ⟨g1, g2, g3, g4⟩ := normalised_input hL hE ht hf hy hmeth hp hq
      have hz : ∀ r ∈ q.rows, AtMostZero r := forall₂_right_mem g4 fun _ _ g => g.2.2.1
      simp only [stdClassLossR, List.mem_cons, List.not_mem_nil, or_false] at hm'
      rcases hm' with rfl | rfl | rfl | rfl
      · obtain ⟨l, e, s⟩ := C120_log g1 hz
        exact ⟨l, e, by rw [s.1, g3]⟩
      · obtain ⟨l, e, s⟩ := C120_brier hL hE g1 hz (by rw [g2]; exact hn) true
        exact ⟨l, e, by rw [s.1, g3]⟩
      · obtain ⟨-, l, e, s⟩ := C120_sphere hL hE g1 (forall₂_right_mem g4 fun _ _ g => g.1) (forall₂_right_mem g4 fun _ _ g => g.2.1) true
        exact ⟨l, e, by rw [s.1, g3]⟩
      · obtain ⟨l, e, s⟩ := C120_zero_one (L := L) (dotR := dotR) g1 fun r hr => atMostZero_logProbs (hz r hr)
        exact ⟨l, e, by rw [s.1, g3]⟩)
  rw [htbl, Except.ok.injEq] at h1
  subst h1
  have hpr : ∀ r ∈ src.rows, Proper r := fun r hr => (hsp r hr).1
  -- what the losses of the samples are like
  have hsl : ∀ {p q : Mat ℝ}, IsMatrix t method p → normalizeRowsR L p = .ok q → src.rows.length = t.nrows := by
    intro p q hp hq
    rw [(hsrc p q hp hq).length_eq, (hin hp hq).2.2.1]
  have hsw : ∀ {p q : Mat ℝ}, IsMatrix t method p → normalizeRowsR L p = .ok q → ∀ r ∈ src.rows, r.length = t.labels.length := by
    intro p q hp hq r hr
    obtain ⟨i, hi, rfl⟩ := List.mem_iff_getElem.1 hr
    have hc := hsrc p q hp hq
    have hi' : i < q.rows.length := by rw [← hc.length_eq]; exact hi
    have := ((List.forall₂_iff_get.1 hc).2 i hi hi').length_eq
    simp only [List.get_eq_getElem] at this
    rw [this, (hin hp hq).1.rows _ (List.getElem_mem hi'), (hin hp hq).2.1]
  have main : ∀ {p q : Mat ℝ}, IsMatrix t method p → normalizeRowsR L p = .ok q → ∀ {l : List (Flt ℝ)} {f : List (Flt ℝ) → Nat → ℝ} {d : ℝ} {metric : Str},
      (∀ (r : List (Flt ℝ)) (k : Nat), r ∈ src.rows → k < r.length → 0 ≤ f r k) → 0 ≤ d → 2 * d ≤ 220 * t.labels.length * u + 22 * T →
      PerSample (fun r k v => ∃ x : ℝ, v = .fin x ∧ |x - f r k| ≤ d) y src l → HasLoss tbl metric method l →
      ∃ xs : List ℝ, HasLoss tbl metric method (finVec xs) ∧ xs ≠ [] ∧ xs.length = t.nrows ∧
        ∀ c m : ℝ, 0 ≤ c → c ≤ 1 → |m - avg xs| ≤ c * avgAbs xs →
          |m - avgExact f y src| ≤ c * avgExact f y src + (220 * t.labels.length * u + 22 * T) := by
    intro p q hp hq l f d metric hf0 hd hd2 hs hl
    have e1 := hsl hp hq
    obtain ⟨xs, rfl, g1, g2, g3⟩ := perSample_mean (by rw [hy.length, e1]) (by
      intro e; rw [e] at e1
      have := ht.rows
      simp at e1; omega) (fun v hv => (hy.range v hv).1) (fun r k hr hk => hf0 r k hr (by
        rw [hsw hp hq r hr]
        exact_mod_cast (hy.range _ hk).2)) hd hs
    exact ⟨xs, hl, g1, g2.trans e1, fun c m hc0 hc hm => (g3 c m hc0 hc hm).trans (by linarith)⟩
  intro e he
  simp only [stdExact, List.mem_cons, List.not_mem_nil, or_false] at he
  rcases he with rfl | rfl | rfl
  · obtain ⟨p, q, l, a, b, c, d, f⟩ := h7 ("NLL".toList, logLoss) (by simp [stdClassLossR]) method hm
    obtain ⟨i1, i2, i3, i4⟩ := hin a b
    obtain ⟨⟨l', e1, e2⟩, -, -⟩ := C126_losses hL hE hA i1 hpr i4 hT0 hT (hsrc p q a b) (by rw [i2]; exact hnu) true
    simp only at c
    rw [c, Except.ok.injEq] at e1
    subst e1
    refine main a b (d := T) ?_ hT0 (by nlinarith) ?_ f
    · intro r k hr hk
      have := Real.log_nonpos (pr_nonneg (shares_nonneg (hpr r hr)) k) (pr_le_one (shares_probVec (hpr r hr)) k)
      linarith
    · refine ⟨e2.1, fun i k r hr hk => ?_⟩
      obtain ⟨v, hv, -, h2⟩ := e2.2 i k r hr hk
      refine ⟨v, hv, h2 ?_⟩
      have hmem := List.mem_of_getElem? hr
      have hk' : k < r.length := by
        rw [hsw a b r hmem]
        exact_mod_cast (hy.range _ (List.mem_of_getElem? hk)).2
      have hv1 := (hpr r hmem).1 _ (List.getElem_mem hk')
      have hv2 := (hsp r hmem).2
      cases hx : r[k] with
      | fin x =>
        rw [share_fin (hpr r hmem) (by rw [List.getElem?_eq_getElem hk', hx])]
        exact (Real.exp_pos _).ne'
      | ninf => exact absurd (hx ▸ List.getElem_mem hk') hv2
      | pinf => exact absurd hx hv1.2
      | nan => exact absurd hx hv1.1
  · obtain ⟨p, q, l, a, b, c, d, f⟩ := h7 ("Brier".toList, brierLossR L true) (by simp [stdClassLossR]) method hm
    obtain ⟨i1, i2, i3, i4⟩ := hin a b
    obtain ⟨-, ⟨l', e1, e2⟩, -⟩ := C126_losses hL hE hA i1 hpr i4 hT0 hT (hsrc p q a b) (by rw [i2]; exact hnu) true
    simp only at c
    rw [c, Except.ok.injEq] at e1
    subst e1
    rw [i2] at e2
    have hb := brierScale_pos true t.labels.length
    have hb2 := brierScale_le true t.labels.length
    refine main a b (d := brierScale true t.labels.length * (18 * t.labels.length * u + 3 * T)) ?_ (mul_nonneg hb.le (by nlinarith)) ?_ e2 f
    · intro r k _ _
      exact mul_nonneg hb.le (Finset.sum_nonneg fun j _ => sq_nonneg _)
    · have : brierScale true t.labels.length * (18 * t.labels.length * u + 3 * T) ≤ 2 * (18 * t.labels.length * u + 3 * T) :=
        mul_le_mul_of_nonneg_right hb2 (by nlinarith)
      nlinarith
  · obtain ⟨p, q, l, a, b, c, d, f⟩ := h7 ("sphere".toList, sphericalLossR L true) (by simp [stdClassLossR]) method hm
    obtain ⟨i1, i2, i3, i4⟩ := hin a b
    obtain ⟨-, -, ⟨l', e1, e2⟩⟩ := C126_losses hL hE hA i1 hpr i4 hT0 hT (hsrc p q a b) (by rw [i2]; exact hnu) true
    simp only at c
    rw [c, Except.ok.injEq] at e1
    subst e1
    rw [i2] at e2
    have hb := sphereScale_pos t.labels.length
    have hb2 := sphereScale_ge t.labels.length
    have hnn : 0 ≤ 31 * (t.labels.length : ℝ) * u + 3 * T := by nlinarith
    refine main a b (d := (31 * t.labels.length * u + 3 * T) / sphereScale t.labels.length) ?_ (div_nonneg hnn hb.le) ?_ e2 f
    · intro r k hr hk
      simp only [sphereAt, if_true]
      rw [ratio_shares (hpr r hr)]
      have := (ratio_bounds (hpr r hr) hk).2
      exact div_nonneg (by linarith) hb.le
    · have : (31 * (t.labels.length : ℝ) * u + 3 * T) / sphereScale t.labels.length ≤ (31 * t.labels.length * u + 3 * T) / (2 / 7) :=
        div_le_div_of_nonneg_left hnn (by norm_num) hb2
      rw [div_div_eq_mul_div] at this
      nlinarith

/-- Every estimate of one method, if its normalised predictions are those of `src` up to `T`. -/
theorem method_cells (hL : GoodLib L) (hE : GoodExpLog L) (hA : AccurateLib u L) {t : PredTable ℝ} (ht : GoodTable t) (hM : t.methods.Nodup)
    (hf : FloatPreds L.rnd t) {y : LabelVec} (hy : GoodTestLabels y t.nrows t.labels.length)
    (hn : ∀ k : Nat, k ≤ t.labels.length → L.rnd k = k) (hnu : t.labels.length * u ≤ 1 / 100) (hru : t.nrows * u ≤ 1 / 1000000)
    {tbl : LossTable} (htbl : lossTableR L t y (stdClassLossR L dotR) false = .ok tbl)
    {refMethod : Str} {pairwise : Bool} {confidence : Flt ℝ} {methodEB : EBMethod} {limits : List (Str × (Flt ℝ × Flt ℝ))}
    {draws : Str → Str → Draws} {out : List (List (Flt ℝ × Flt ℝ × Flt ℝ))}
    (h : lossSummaryTableR L tbl refMethod pairwise confidence methodEB limits draws = .ok out)
    {T : ℝ} (hT0 : 0 ≤ T) (hT : T ≤ 1 / 50) :
    List.Forall₂ (fun metric row => List.Forall₂ (fun method cell => ∀ (src : Mat ℝ), method ∈ t.methods → (∀ r ∈ src.rows, Proper r ∧ Flt.ninf ∉ r) →
      (∀ p q, IsMatrix t method p → normalizeRowsR L p = .ok q → List.Forall₂ (CloseRow T) src.rows q.rows) →
      ∀ e ∈ stdExact t.labels.length, e.1 = metric → ∃ m : ℝ, cell.1 = .fin m ∧ |m - avgExact e.2 y src| ≤
        2 * (t.nrows * u) * avgExact e.2 y src + (220 * t.labels.length * u + 22 * T)) tbl.methods row) tbl.metrics out := by
  refine (C111_table hA.nonneg hA.rnd hL.sum h).imp fun metric row hrow => hrow.imp fun method cell hcell => ?_
  rintro src hm hsp hsrc e he rfl
  obtain ⟨xs, h1, h2, h3, h4⟩ := method_columns (dotR := dotR) hL hE hA ht hM hf hy hn hnu htbl hm hsp hT0 hT hsrc e he
  obtain ⟨m, e1, e2⟩ := hcell xs h1 h2 (by rw [h3]; exact hru)
  rw [h3] at e2
  have hu := hA.nonneg
  have hr0 : (0 : ℝ) ≤ t.nrows * u := mul_nonneg (by positivity) hu
  exact ⟨m, e1, h4 _ _ (by linarith) (by linarith) e2⟩

/-- **C126, loss tables.**  Let the predictions of a table be floats of absolute value at most `B`.  Whenever `loss_table` and `loss_summary_table` return tables for the standard losses,
the estimate of each method for the log loss, the Brier loss and the spherical loss is the average of the exact losses, with a relative error of at most `2 N u` and
an absolute error of at most `u (88 B + 440 n)`, for `N` samples and `n` labels. -/
theorem C126_table (hL : GoodLib L) (hE : GoodExpLog L) (hA : AccurateLib u L) {t : PredTable ℝ} (ht : GoodTable t) (hM : t.methods.Nodup)
    (hf : FloatPreds L.rnd t) (hx : NoneExcluded t) {B : ℝ} (hB : ∀ method ∈ t.methods, ∀ p, IsMatrix t method p → ∀ r ∈ p.rows, BoundedRow B r)
    {y : LabelVec} (hy : GoodTestLabels y t.nrows t.labels.length)
    (hn : ∀ k : Nat, k ≤ t.labels.length → L.rnd k = k) (hnu : t.labels.length * u ≤ 1 / 100) (hru : t.nrows * u ≤ 1 / 1000000)
    (hT : u * (4 * B + 10 * t.labels.length) ≤ 1 / 50)
    {tbl : LossTable} (htbl : lossTableR L t y (stdClassLossR L dotR) false = .ok tbl)
    {refMethod : Str} {pairwise : Bool} {confidence : Flt ℝ} {methodEB : EBMethod} {limits : List (Str × (Flt ℝ × Flt ℝ))}
    {draws : Str → Str → Draws} {out : List (List (Flt ℝ × Flt ℝ × Flt ℝ))}
    (h : lossSummaryTableR L tbl refMethod pairwise confidence methodEB limits draws = .ok out) :
    List.Forall₂ (fun metric row => List.Forall₂ (fun method cell => method ∈ t.methods → ∀ p, IsMatrix t method p →
      ∀ e ∈ stdExact t.labels.length, e.1 = metric → ∃ m : ℝ, cell.1 = .fin m ∧ |m - avgExact e.2 y p| ≤
        2 * (t.nrows * u) * avgExact e.2 y p + u * (88 * B + 440 * t.labels.length)) tbl.methods row) tbl.metrics out := by
  have hu := hA.nonneg
  have hB0 : 0 ≤ B := by
    obtain ⟨method, hm⟩ := List.exists_mem_of_ne_nil _ ht.methods
    have hp := isMatrix_of (ht.order _ hm)
    have hl : 0 < (matrixOf t method).rows.length := by rw [hp.2.1]; exact ht.rows
    have hmem := List.getElem_mem hl
    obtain ⟨x, hx'⟩ := (hf method hm _ hp _ hmem).1.2
    exact (abs_nonneg x).trans (hB method hm _ hp _ hmem x hx')
  have hT0 : 0 ≤ u * (4 * B + 10 * t.labels.length) := mul_nonneg hu (by positivity)
  refine (method_cells (dotR := dotR) hL hE hA ht hM hf hy hn hnu hru htbl h hT0 hT).imp fun metric row hrow => hrow.imp fun method cell hcell => ?_
  intro hm p hp e he hem
  obtain ⟨m, e1, e2⟩ := hcell p hm (fun r hr => ⟨(hf method hm p hp r hr).1, hx method hm p hp r hr⟩) (by
    intro p' q hp' hq
    obtain rfl := isMatrix_unique rfl rfl (fun k col => Iff.rfl) hp' hp
    obtain ⟨q', g1, -, g3⟩ := normalize_close hL hE hA (p := p) (by rw [hp.1]; exact ht.labels)
      (fun r hr => ⟨(hf method hm p hp r hr).1, hp.2.2.1 r hr⟩) (hB method hm p hp) (by rw [hp.1]; exact hnu)
    rw [hq, Except.ok.injEq] at g1
    subst g1
    rwa [hp.1] at g3) e he hem
  refine ⟨m, e1, e2.trans (le_of_eq ?_)⟩
  ring

/-- Two methods, two labels, two samples; the columns of the methods are interleaved. -/
noncomputable def countTable : PredTable ℝ :=
  ⟨["a".toList, "b".toList], [0, 1], 2,
    [(("b".toList, 0), [.fin 0, .fin 0]), (("a".toList, 0), [.fin 1, .fin 4]), (("b".toList, 1), [.fin 0, .fin 2]),
      (("a".toList, 1), [.fin 3, .fin 0])]⟩

theorem countTable_good : GoodTable countTable where
  rows := by simp [countTable]
  labels := by simp [countTable]
  methods := by simp [countTable]
  order := by
    intro m hm
    simp only [countTable, List.mem_cons, List.not_mem_nil, or_false] at hm
    rcases hm with rfl | rfl <;> rfl
  lengths := by simp [countTable]
  noNaN := by simp [countTable]

theorem countTable_values {method : Str} (hm : method ∈ countTable.methods) {p : Mat ℝ} (hp : IsMatrix countTable method p) {r : List (Flt ℝ)} (hr : r ∈ p.rows) :
    r.length = 2 ∧ ∀ v ∈ r, ∃ k : Nat, k ≤ 4 ∧ v = .fin k := by
  obtain rfl := isMatrix_unique rfl rfl (fun _ _ => Iff.rfl) (isMatrix_of (countTable_good.order _ hm)) hp
  refine ⟨?_, fun v hv => ?_⟩
  · rw [hp.2.2.1 r hr, hp.1]; rfl
  · obtain ⟨c, hc, -, hv⟩ := matrixOf_mem countTable_good.lengths hr hv
    simp only [countTable, List.mem_cons, List.not_mem_nil, or_false] at hc
    rcases hc with rfl | rfl | rfl | rfl <;> simp only [List.mem_cons, List.not_mem_nil, or_false] at hv <;> rcases hv with rfl | rfl
    · exact ⟨0, by norm_num⟩
    · exact ⟨0, by norm_num⟩
    · exact ⟨1, by norm_num⟩
    · exact ⟨4, by norm_num⟩
    · exact ⟨0, by norm_num⟩
    · exact ⟨2, by norm_num⟩
    · exact ⟨3, by norm_num⟩
    · exact ⟨0, by norm_num⟩

theorem countTable_floats : FloatPreds binary64 countTable := by
  intro method hm p hp r hr
  obtain ⟨h1, h2⟩ := countTable_values hm hp hr
  refine ⟨⟨fun v hv => ?_, ?_⟩, fun x hx => ?_⟩
  · obtain ⟨k, -, rfl⟩ := h2 v hv
    simp
  · match r, h1 with
    | v :: _, _ =>
      obtain ⟨k, -, rfl⟩ := h2 v (by simp)
      exact ⟨_, List.mem_cons_self ..⟩
  · obtain ⟨k, hk, e⟩ := h2 _ hx
    cases e
    exact binary64_nat (n := 4) (by norm_num) k hk

/-- C126 for the tables of these predictions, in double precision. -/
example {tbl : LossTable} (htbl : lossTableR doubleLib countTable ⟨'i', [1, 0]⟩ (stdClassLossR doubleLib doubleDot) false = .ok tbl)
    {draws : Str → Str → Draws} {out : List (List (Flt ℝ × Flt ℝ × Flt ℝ))}
    (h : lossSummaryTableR doubleLib tbl "a".toList true (.fin (1 / 2)) .t [] draws = .ok out) :
    List.Forall₂ (fun metric row => List.Forall₂ (fun method cell => method ∈ countTable.methods → ∀ p, IsMatrix countTable method p →
      ∀ e ∈ stdExact 2, e.1 = metric → ∃ m : ℝ, cell.1 = .fin m ∧ |m - avgExact e.2 ⟨'i', [1, 0]⟩ p| ≤
        2 * (2 * (1 / 2 ^ 53)) * avgExact e.2 ⟨'i', [1, 0]⟩ p + 1 / 2 ^ 53 * (88 * 4 + 440 * 2)) tbl.methods row) tbl.metrics out := by
  refine C126_table (t := countTable) (B := 4) doubleLib_good doubleLib_expLog doubleLib_accurate countTable_good ?_ countTable_floats ?_ ?_ ⟨.inr rfl, rfl, by simp [countTable]⟩
    (binary64_nat (by norm_num [countTable])) (by norm_num [countTable]) (by norm_num [countTable]) (by norm_num [countTable]) htbl h
  · simp only [countTable]; decide
  · intro method hm p hp r hr hx
    obtain ⟨k, -, e⟩ := (countTable_values hm hp hr).2 _ hx
    cases e
  · intro method hm p hp r hr x hx
    obtain ⟨k, hk, e⟩ := (countTable_values hm hp hr).2 _ hx
    cases e
    rw [abs_of_nonneg (by positivity)]
    exact_mod_cast hk

/-- And such tables exist. -/
example (draws : Str → Str → Draws) : ∃ tbl out, lossTableR doubleLib countTable ⟨'i', [1, 0]⟩ (stdClassLossR doubleLib doubleDot) false = .ok tbl ∧
    lossSummaryTableR doubleLib tbl "a".toList true (.fin (1 / 2)) .t [] draws = .ok out := by
  obtain ⟨tbl, out, h1, h2, -⟩ := C121_loss_summary (dotR := doubleDot) (t := countTable) (m := 2 ^ 52) doubleLib_good doubleLib_expLog doubleLib_accurate.nonneg doubleLib_accurate.rnd
    binary64_halves (by norm_num) countTable_good (by simp only [countTable]; decide) countTable_floats (by
      intro method hm p hp r hr hx
      obtain ⟨k, -, e⟩ := (countTable_values hm hp hr).2 _ hx
      cases e) (y := ⟨'i', [1, 0]⟩) ⟨.inr rfl, rfl, by simp [countTable]⟩ (binary64_nat (by norm_num [countTable])) (binary64_nat (by norm_num [countTable]))
    (refMethod := "a".toList) (by simp [countTable]) (pairwise := true) (c := 1 / 2) (by norm_num) (by norm_num) (methodEB := .t) (by simp) (limits := [])
    (coversLosses_default _ _) (draws := draws) (by intro h; cases h) (by norm_num [countTable])
  exact ⟨tbl, out, h1, h2⟩

/-! ## The benchmark -/

/-- A row that is normalised up to `T ≤ 1` is bounded. -/
theorem CloseRow.bounded {T B : ℝ} {r r' : List (Flt ℝ)} (hr : Proper r) (hb : BoundedRow B r) (hT : T ≤ 1) (h : CloseRow T r r') :
    BoundedRow (2 * B + r.length) r' := by
  intro y hy
  obtain ⟨i, hi', e⟩ := List.mem_iff_getElem.1 hy
  have hi : i < r.length := by rw [h.length_eq]; exact hi'
  have a := (List.forall₂_iff_get.1 h).2 i hi hi'
  simp only [List.get_eq_getElem] at a
  rcases a with ⟨-, a2⟩ | ⟨x, y', a1, a2, a3⟩
  · rw [e] at a2; cases a2
  · rw [e] at a2
    cases a2
    have h1 := hb x (a1 ▸ List.getElem_mem hi)
    have h2 := logTotal_abs hr hb
    have h3 := abs_sub x (logTotal r)
    have h4 := abs_sub_abs_le_abs_sub y (x - logTotal r)
    linarith

/-- **C126, `just_benchmark`.**  Let the predictions of the methods, raised to the floor `min_pred_log_prob`, be floats of absolute value at most `B`.  Whenever `just_benchmark` returns tables for the standard losses,
the estimate of each method for the log loss, the Brier loss and the spherical loss is the average over the test set of the exact loss of the normalised predictions of the estimator, with a
relative error of at most `2 N u` and an absolute error of at most `u (352 B + 968 n)`, for `N` samples and `n` labels. -/
theorem C126_benchmark {D : Type} (hL : GoodLib L) (hE : GoodExpLog L) (hA : AccurateLib u L) {other : Interp ℝ} {xTrain : Features D} {yTrain : LabelVec}
    {xTest : Features D} {yTest : LabelVec} {nLabels nTest : Nat} {methods : List (Str × Estimator D)} {floor : ℝ}
    (hg : GoodData xTrain yTrain xTest nLabels (.fin floor) nTest) (hfl : L.rnd floor = floor) (hnd : (methods.map fun m => m.1).Nodup) (hne : methods ≠ [])
    {B : ℝ} (hp : ∀ m ∈ methods, ∃ p, PredictsR L xTrain yTrain xTest m.2 p ∧ GoodPrediction L.rnd (.fin floor) nTest nLabels p ∧
      ∀ r ∈ (floorMat (.fin floor) p).rows, BoundedRow B r)
    (hy : GoodTestLabels yTest nTest nLabels) (hn : ∀ k : Nat, k ≤ nLabels → L.rnd k = k) (hru : nTest * u ≤ 1 / 1000000)
    (hT : u * (16 * B + 34 * nLabels) ≤ 1 / 50)
    {curves : List (Str × CurveF ℝ)} {refMethod : Str} {pairwise : Bool} {methodEB : EBMethod} {limits : List (Str × (Flt ℝ × Flt ℝ))}
    {cd : BootDraws} {ld : Str → Str → Draws} {full : FullTable} {dump : CurveDump ℝ}
    (h : justBenchmarkR L other xTrain yTrain xTest yTest nLabels methods (stdClassLossR L dotR) curves refMethod (.fin floor) pairwise methodEB limits cd ld =
      .ok (full, dump)) :
    ∃ lossNames lossCols curveCols, full.metrics = lossNames ++ curves.map (·.1) ∧ full.columns = lossCols ++ curveCols ∧
      full.methods.Perm (methods.map fun m => m.1) ∧ lossNames.Perm ["NLL".toList, "Brier".toList, "sphere".toList, "zero_one".toList] ∧
      List.Forall₂ (fun metric col => List.Forall₂ (fun method cell => ∀ est, (method, est) ∈ methods → ∀ p, PredictsR L xTrain yTrain xTest est p →
        ∀ e ∈ stdExact nLabels, e.1 = metric → ∃ m : ℝ, cell.1 = .fin m ∧ |m - avgExact e.2 yTest (floorMat (.fin floor) p)| ≤
          2 * (nTest * u) * avgExact e.2 yTest (floorMat (.fin floor) p) + u * (352 * B + 968 * nLabels)) full.methods col) lossNames lossCols := by
  have hu := hA.nonneg
  have hpos : 1 ≤ nLabels := by
    obtain ⟨v, l, hv⟩ := List.exists_cons_of_ne_nil hg.nonempty
    have := hg.range v (by simp [hv])
    omega
  have hpos' : (1 : ℝ) ≤ nLabels := by exact_mod_cast hpos
  -- every floored prediction is a proper matrix
  have hrow : ∀ m ∈ methods, ∀ p, PredictsR L xTrain yTrain xTest m.2 p → p.rows.length = nTest ∧ (floorMat (.fin floor) p).ncols = nLabels ∧
      ∀ r ∈ (floorMat (.fin floor) p).rows, Proper r ∧ Flt.ninf ∉ r ∧ r.length = nLabels ∧ BoundedRow B r := by
    intro m hm p hpp
    obtain ⟨p', h1, h2, h3⟩ := hp m hm
    obtain rfl := predictsR_unique hpp h1
    refine ⟨h2.rows, h2.cols, fun r hr => ?_⟩
    obtain ⟨r0, hr0, e⟩ := List.mem_map.1 hr
    have hlen : r0.length = nLabels := by rw [← h2.cols]; exact h2.rect r0 hr0
    have hr0ne : r0 ≠ [] := by rintro rfl; simp at hlen; omega
    refine ⟨e ▸ (floored_row hg.floor (by rintro x h; cases h; exact hfl) (h2.logs r0 hr0).1 (h2.logs r0 hr0).2 hr0ne fun e => by cases e).1, ?_, ?_, h3 r hr⟩
    · rw [← e]
      intro hx
      obtain ⟨v, hv, ev⟩ := List.mem_map.1 hx
      exact Flt.not_fin_le_ninf floor (ev ▸ le_max_left _ _)
    · rw [← e, List.length_map, hlen]
  have hB0 : 0 ≤ B := by
    obtain ⟨m, hm⟩ := List.exists_mem_of_ne_nil _ hne
    obtain ⟨p, h1, -⟩ := hp m hm
    obtain ⟨a, -, b⟩ := hrow m hm p h1
    have hl : 0 < (floorMat (.fin floor) p).rows.length := by rw [floorMat, List.length_map, a]; exact hg.pos
    obtain ⟨c, -, -, d⟩ := b _ (List.getElem_mem hl)
    obtain ⟨x, hx⟩ := c.2
    exact (abs_nonneg x).trans (d x hx)
  have hBu : 0 ≤ u * B := mul_nonneg hu hB0
  have hnu0 : 0 ≤ u * nLabels := mul_nonneg hu (by positivity)
  have hnu : (nLabels : ℝ) * u ≤ 1 / 100 := by nlinarith
  obtain ⟨t, e, r1, r2, r3, r4, r5, r6, r7⟩ := C121_predictions hL hE hg (by rintro x h; cases h; exact hfl) hnd hne
    (fun m hm => by obtain ⟨p, a, b, -⟩ := hp m hm; exact ⟨p, a, b⟩)
  have h2 : t.labels.length = nLabels := by rw [r2]; simp [rangeList]
  subst r1
  have hnod := (r3.nodup_iff).2 hnd
  obtain ⟨tbl0, e0, -, hmet, hmeth, -⟩ := C121_loss_table (dotR := dotR) hL hE r5 hnod r6 (by rw [h2]; exact hy) (by rw [h2]; exact hn)
  unfold justBenchmarkR at h
  obtain ⟨-, h⟩ := (assert_bind_ok ..).1 h
  rw [e, ok_bind] at h
  obtain ⟨tbl, lossCols, curveCols, g1, g2, g3, g4, g5, -⟩ := C121_layout h
  rw [e0, Except.ok.injEq] at g1
  subst g1
  refine ⟨tbl0.metrics, lossCols, curveCols, g3, g5, by rw [g4]; exact hmeth.1.trans r3, hmet.1, ?_⟩
  rw [g4]
  refine (method_cells (dotR := dotR) hL hE hA r5 hnod r6 (by rw [h2]; exact hy) (by rw [h2]; exact hn) (by rw [h2]; exact hnu) hru e0 g2
    (T := u * (16 * B + 34 * nLabels)) (mul_nonneg hu (by positivity)) hT).imp fun metric row hrow' => hrow'.imp fun method cell hcell => ?_
  intro est hest p hpp ex hex hmetric
  obtain ⟨a1, a2, a3⟩ := hrow _ hest p hpp
  rw [h2] at hcell
  obtain ⟨m, e1, e2⟩ := hcell (floorMat (.fin floor) p) ((r3.mem_iff).2 (List.mem_map.2 ⟨_, hest, rfl⟩)) (fun r hr => ⟨(a3 r hr).1, (a3 r hr).2.1⟩) (by
    intro p1 q hp1 hq
    obtain ⟨p0, p1', b1, b2, b3, -, -⟩ := r7 _ hest
    obtain rfl := predictsR_unique hpp b1
    obtain rfl := isMatrix_unique rfl rfl (fun _ _ => Iff.rfl) b2 hp1
    obtain ⟨q1, c1, -, c3⟩ := normalize_close hL hE hA (p := floorMat (.fin floor) p) (by rw [a2]; exact hpos)
      (fun r hr => ⟨(a3 r hr).1, by rw [a2]; exact (a3 r hr).2.2.1⟩) (fun r hr => (a3 r hr).2.2.2) (by rw [a2]; exact hnu)
    rw [b3, Except.ok.injEq] at c1
    subst c1
    rw [a2] at c3
    have hT1 : u * (4 * B + 10 * nLabels) ≤ 1 := by nlinarith
    have hb1 : ∀ r ∈ p1.rows, BoundedRow (2 * B + nLabels) r :=
      forall₂_right_mem (forall₂_left_mem c3 fun r r' hr hc => by
        have := CloseRow.bounded (a3 r hr).1 (a3 r hr).2.2.2 hT1 hc
        rwa [(a3 r hr).2.2.1] at this) fun _ _ g => g
    have hm1 : method ∈ t.methods := (r3.mem_iff).2 (List.mem_map.2 ⟨_, hest, rfl⟩)
    obtain ⟨q2, d1, -, d3⟩ := normalize_close hL hE hA (p := p1) (by rw [hp1.1, h2]; exact hpos)
      (fun r hr => ⟨(r6 method hm1 p1 hp1 r hr).1, hp1.2.2.1 r hr⟩) hb1 (by rw [hp1.1, h2]; exact hnu)
    rw [hq, Except.ok.injEq] at d1
    subst d1
    rw [hp1.1, h2] at d3
    refine List.forall₂_iff_get.2 ⟨c3.length_eq.trans d3.length_eq, fun i hi hi'' => ?_⟩
    have hi' : i < p1.rows.length := by rw [← c3.length_eq]; exact hi
    have := ((List.forall₂_iff_get.1 c3).2 i hi hi').trans (a3 _ (List.getElem_mem hi)).1 ((List.forall₂_iff_get.1 d3).2 i hi' hi'')
    rwa [show 2 * (u * (4 * B + 10 * (nLabels : ℝ))) + u * (4 * (2 * B + nLabels) + 10 * nLabels) = u * (16 * B + 34 * nLabels) by ring] at this) ex hex hmetric
  refine ⟨m, e1, e2.trans (le_of_eq ?_)⟩
  ring

/-- Predictions of at most 0, raised to the floor. -/
theorem floored_bounded {floor : ℝ} (h0 : floor < 0) {r : List (Flt ℝ)} (hr : AtMostZero r) :
    BoundedRow (-floor) (r.map fun v => Flt.maximum (.fin floor) v) := by
  intro x hx
  obtain ⟨v, hv, e⟩ := List.mem_map.1 hx
  have h1 : Flt.fin floor ≤ Flt.fin x := e ▸ le_max_left _ _
  have h2 : Flt.fin x ≤ Flt.fin 0 := by
    rw [← e]
    refine max_le (Flt.fin_le_fin.2 h0.le) ?_
    rcases hr v hv with rfl | ⟨y, hy, rfl⟩
    · exact Flt.ninf_le _
    · exact Flt.fin_le_fin.2 hy
  rw [Flt.fin_le_fin] at h1 h2
  rw [abs_le]
  constructor <;> linarith

/-- **C126 in double precision.**  With at most 1000 labels, at most a million test samples, a floor of at least -1000 and log-probabilities of at most 0, the estimates of `just_benchmark` are accurate to
nine digits after the point, up to the rounding of the average. -/
theorem C126_double {D : Type} {other : Interp ℝ} {xTrain : Features D} {yTrain : LabelVec}
    {xTest : Features D} {yTest : LabelVec} {nLabels nTest : Nat} {methods : List (Str × Estimator D)} {floor : ℝ}
    (hg : GoodData xTrain yTrain xTest nLabels (.fin floor) nTest) (hfl : binary64 floor = floor) (hfloor : -1000 ≤ floor) (hnd : (methods.map fun m => m.1).Nodup)
    (hne : methods ≠ []) (hp : ∀ m ∈ methods, ∃ p, PredictsR doubleLib xTrain yTrain xTest m.2 p ∧ GoodPrediction binary64 (.fin floor) nTest nLabels p ∧
      ∀ r ∈ p.rows, AtMostZero r)
    (hy : GoodTestLabels yTest nTest nLabels) (hn : nLabels ≤ 1000) (hN : nTest ≤ 1000000)
    {curves : List (Str × CurveF ℝ)} {refMethod : Str} {pairwise : Bool} {methodEB : EBMethod} {limits : List (Str × (Flt ℝ × Flt ℝ))}
    {cd : BootDraws} {ld : Str → Str → Draws} {full : FullTable} {dump : CurveDump ℝ}
    (h : justBenchmarkR doubleLib other xTrain yTrain xTest yTest nLabels methods (stdClassLossR doubleLib dotR) curves refMethod (.fin floor) pairwise methodEB limits cd ld =
      .ok (full, dump)) :
    ∃ lossNames lossCols curveCols, full.metrics = lossNames ++ curves.map (·.1) ∧ full.columns = lossCols ++ curveCols ∧
      full.methods.Perm (methods.map fun m => m.1) ∧ lossNames.Perm ["NLL".toList, "Brier".toList, "sphere".toList, "zero_one".toList] ∧
      List.Forall₂ (fun metric col => List.Forall₂ (fun method cell => ∀ est, (method, est) ∈ methods → ∀ p, PredictsR doubleLib xTrain yTrain xTest est p →
        ∀ e ∈ stdExact nLabels, e.1 = metric → ∃ m : ℝ, cell.1 = .fin m ∧ |m - avgExact e.2 yTest (floorMat (.fin floor) p)| ≤
          nTest / 2 ^ 52 * avgExact e.2 yTest (floorMat (.fin floor) p) + 2 / 10 ^ 10) full.methods col) lossNames lossCols := by
  have h0 : floor < 0 := Flt.fin_lt_fin.1 hg.floor
  have hn' : (nLabels : ℝ) ≤ 1000 := by exact_mod_cast hn
  have hN' : (nTest : ℝ) ≤ 1000000 := by exact_mod_cast hN
  obtain ⟨a, b, c, h1, h2, h3, h4, h5⟩ := C126_benchmark (B := -floor) doubleLib_good doubleLib_expLog doubleLib_accurate hg hfl hnd hne (by
      intro m hm
      obtain ⟨p, e1, e2, e3⟩ := hp m hm
      refine ⟨p, e1, e2, fun r hr => ?_⟩
      obtain ⟨r0, hr0, rfl⟩ := List.mem_map.1 hr
      exact floored_bounded h0 (e3 r0 hr0)) hy (binary64_nat (n := nLabels) (by omega)) (by norm_num; linarith) (by norm_num; linarith) h
  refine ⟨a, b, c, h1, h2, h3, h4, h5.imp fun metric col hc => hc.imp fun method cell hcell est hest p hpp e he hm => ?_⟩
  obtain ⟨m, e1, e2⟩ := hcell est hest p hpp e he hm
  refine ⟨m, e1, e2.trans ?_⟩
  have h6 : (1 : ℝ) / 2 ^ 53 * (352 * -floor + 968 * nLabels) ≤ 2 / 10 ^ 10 := by norm_num; linarith
  have h7 : 2 * ((nTest : ℝ) * (1 / 2 ^ 53)) = nTest / 2 ^ 52 := by ring
  rw [h7]
  linarith

/-! ## An example -/

theorem doubleLib_log_nonpos {x : ℝ} (h0 : 0 < x) (h1 : x ≤ 1) : doubleLib.log x ≤ 0 := by
  have h := (abs_le.1 (doubleLib_accurate.log x h0)).2
  have h2 := Real.log_nonpos h0.le h1
  rw [abs_of_nonpos h2] at h
  nlinarith

/-- What the second classifier of the example predicts. -/
noncomputable def exampleLogs : Mat ℝ := ⟨2, [[.fin (doubleLib.log (1 / 4)), .fin (doubleLib.log (3 / 4))], [.ninf, .fin (doubleLib.log 1)]]⟩

theorem exampleEst_predictsR : PredictsR doubleLib exampleTrain exampleY exampleTest exampleEst exampleLogs :=
  ⟨_, rfl, Or.inr ⟨by simp, _, rfl, rfl, by simp [flogR, exampleLogs]⟩⟩

/-- The exact average Brier loss of its predictions, raised to the floor -4. -/
noncomputable def exampleBrier : ℝ := avgExact (fun r k => brierScale true 2 * brierAt (shares r) k) ⟨'i', [0, 1]⟩ (floorMat (.fin (-4)) exampleLogs)

theorem benchMethods_nonpos {floor : ℝ} (m : Str × Estimator Unit) (hm : m ∈ benchMethods) :
    ∃ p, PredictsR doubleLib exampleTrain exampleY exampleTest m.2 p ∧ GoodPrediction doubleLib.rnd (.fin floor) 2 2 p ∧ ∀ r ∈ p.rows, AtMostZero r := by
  obtain ⟨p, h1, h2⟩ := benchMethods_good (floor := floor) m hm
  refine ⟨p, h1, h2, ?_⟩
  simp only [benchMethods, List.mem_cons, List.not_mem_nil, or_false] at hm
  rcases hm with rfl | rfl
  · obtain ⟨q, p', h1', -, e, h3⟩ := C121_noise (D := Unit) doubleLib_good (fun x _ _ => doubleLib_log x) (y := exampleY) (n := 2)
      ⟨by norm_num, rfl, by simp [exampleY]⟩ (by simp [exampleY]) (pseudo := 1) (by norm_num) binary64_floatRounding.one exampleTrain (xTest := exampleTest)
      (nTest := 2) (rest := [1]) rfl
    obtain rfl := predictsR_unique h1 h1'
    intro r hr v hv
    rw [e] at hr
    rw [List.eq_of_mem_replicate hr] at hv
    obtain ⟨k, hk, rfl⟩ := List.mem_map.1 hv
    rw [List.mem_range] at hk
    split_ifs with h0
    · exact .inl rfl
    · exact .inr ⟨_, doubleLib_log_nonpos (lt_of_le_of_ne (h3 k hk).1 (Ne.symm h0)) (h3 k hk).2.1, rfl⟩
  · obtain rfl := predictsR_unique h1 exampleEst_predictsR
    intro r hr v hv
    simp only [exampleLogs, List.mem_cons, List.not_mem_nil, or_false] at hr
    rcases hr with rfl | rfl <;> simp only [List.mem_cons, List.not_mem_nil, or_false] at hv <;> rcases hv with rfl | rfl
    · exact .inr ⟨_, doubleLib_log_nonpos (by norm_num) (by norm_num), rfl⟩
    · exact .inr ⟨_, doubleLib_log_nonpos (by norm_num) (by norm_num), rfl⟩
    · exact .inl rfl
    · exact .inr ⟨_, doubleLib_log_nonpos (by norm_num) (by norm_num), rfl⟩

/-- C126 in double precision: every table that `just_benchmark` returns for the constant classifier and a classifier that excludes a label in one row. -/
example {other : Interp ℝ} {cd : BootDraws} {ld : Str → Str → Draws} {full : FullTable} {dump : CurveDump ℝ}
    (h : justBenchmarkR doubleLib other exampleTrain exampleY exampleTest ⟨'i', [0, 1]⟩ 2 benchMethods
      (stdClassLossR doubleLib doubleDot) (stdBinaryCurvesR doubleLib) "noise".toList (.fin (-4)) false .t [] cd ld = .ok (full, dump)) :
    ∃ lossNames lossCols curveCols, full.metrics = lossNames ++ ["AUC".toList, "AP".toList, "AUPRG".toList] ∧ full.columns = lossCols ++ curveCols ∧
      List.Forall₂ (fun metric (col : List (Flt ℝ × Flt ℝ × Flt ℝ)) => List.Forall₂ (fun method cell => method = "a".toList → metric = "Brier".toList →
        ∃ m : ℝ, cell.1 = .fin m ∧ |m - exampleBrier| ≤ 2 / 2 ^ 52 * exampleBrier + 2 / 10 ^ 10) full.methods col) lossNames lossCols := by
  obtain ⟨n, l, c, h1, h2, -, -, h5⟩ := C126_double (methods := benchMethods) (exampleGood (.fin (-4)) (by norm_num))
    (by have := binary64_exact (K := ℝ) (-4) 0 (by norm_num); simpa using this) (by norm_num) (by simp only [benchMethods, List.map_cons, List.map_nil]; decide)
    (by simp [benchMethods]) benchMethods_nonpos ⟨Or.inr rfl, rfl, by simp⟩ (by norm_num) (by norm_num) h
  refine ⟨n, l, c, h1, h2, h5.imp fun metric col hc => hc.imp ?_⟩
  rintro method cell hcell rfl rfl
  obtain ⟨m, e1, e2⟩ := hcell exampleEst (by simp [benchMethods]) _ exampleEst_predictsR ("Brier".toList, _) (.tail _ (.head _)) rfl
  exact ⟨m, e1, by simpa [exampleBrier] using e2⟩

end Mlp.Props
