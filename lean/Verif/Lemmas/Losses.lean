import Verif.Model.ClassLoss
import Verif.Spec.Losses
import Verif.Props.Normalize
import Verif.Props.OneHot
import Verif.Props.Gain

/-! # Lemmas about the classification losses -/

namespace Mlp.Lemmas
open Mlp.Util Mlp.Spec Mlp.Classif Mlp.Props

theorem getD_eq {β : Type} (l : List β) (d : β) {k : Nat} (h : k < l.length) : l.getD k d = l[k] := by
  rw [List.getD_eq_getElem?_getD, List.getElem?_eq_getElem h]; rfl

section
variable {K : Type}

theorem validate_ok {y : LabelVec} {p : Mat K} (h : ClassInput y p) :
    shapeAndValidate y p = .ok (p.rows.length, p.ncols) := by
  unfold shapeAndValidate
  simp only [pyAssert_bind]
  have h0 : 1 ≤ p.rows.length := List.length_pos_iff.2 h.nonempty
  rw [if_pos (decide_eq_true h0), if_pos (by simpa using h.labels),
    if_pos (by simpa [h.length] using h.kind), if_pos]
  · rfl
  · simp only [Bool.and_eq_true, List.all_eq_true, decide_eq_true_eq]
    exact ⟨fun v hv => (h.range v hv).1, fun v hv => (h.range v hv).2⟩

theorem validate_error {y : LabelVec} {p : Mat K} (hp : p.Ok) (h : ¬ ClassInput y p) :
    shapeAndValidate y p = .error .assertion := by
  unfold shapeAndValidate
  simp only [pyAssert_bind]
  split_ifs with h1 h2 h3 h4
  · exfalso
    simp only [Bool.and_eq_true, List.all_eq_true, decide_eq_true_eq, Bool.or_eq_true] at h1 h2 h3 h4
    exact h ⟨h3.2, h2, List.length_pos_iff.1 h1, h3.1, hp, fun v hv => ⟨h4.1 v hv, h4.2 v hv⟩⟩
  all_goals rfl

theorem pyIdx_ok {β : Type} {l : List β} {k : Nat} (h : k < l.length) : pyIdx l (k : Int) = .ok l[k] := by
  unfold pyIdx
  have h1 : ¬ ((k : Int) < 0) := by omega
  simp only [h1, if_false, Int.toNat_natCast, List.getElem?_eq_getElem h]

theorem pyIdx_getD {l : List (Flt K)} {k : Nat} (h : k < l.length) :
    pyIdx l (k : Int) = .ok (l.getD k .nan) := by
  rw [pyIdx_ok h, getD_eq _ _ h]

/-- Entry number `k` of each row. -/
theorem pick_ok {y : LabelVec} {p : Mat K} (h : ClassInput y p) :
    Classif.pick p y.vals = .ok (List.zipWith (fun (r : List (Flt K)) (k : Int) => r.getD k.toNat .nan) p.rows y.vals) := by
  unfold Classif.pick
  rw [mapM_eq_ok_map (g := fun p => p.1.getD p.2.toNat .nan), ← List.map_uncurry_zip_eq_zipWith]
  · rfl
  · rintro ⟨r, k⟩ hm
    obtain ⟨h1, h2⟩ := List.of_mem_zip hm
    have hr := h.rows r h1
    obtain ⟨h3, h4⟩ := h.range k h2
    obtain ⟨j, rfl⟩ := Int.eq_ofNat_of_zero_le h3
    simp only [Int.toNat_natCast]
    exact pyIdx_getD (by rw [hr]; exact_mod_cast h4)

/-- A result computed row by row. -/
theorem perSample_of {y : LabelVec} {p : Mat K} (h : ClassInput y p) {R : List (Flt K) → Nat → Flt K → Prop}
    (f : List (Flt K) → Int → Flt K) (hf : ∀ r ∈ p.rows, ∀ k : Nat, k < p.ncols → R r k (f r k)) :
    PerSample R y p (List.zipWith f p.rows y.vals) := by
  refine ⟨by simp [h.length], ?_⟩
  intro i k r hr hk
  refine ⟨f r k, by rw [List.getElem?_zipWith, hr, hk], ?_⟩
  have := (h.range _ (List.mem_of_getElem? hk)).2
  exact hf r (List.mem_of_getElem? hr) k (by exact_mod_cast this)

end

/-- A sum over a list as a sum over its positions. -/
theorem sum_map_range {β : Type} (l : List β) (d : β) (f : β → ℝ) :
    (l.map f).sum = ∑ k ∈ Finset.range l.length, f (l.getD k d) := by
  induction l with
  | nil => simp
  | cons a l ih =>
    rw [List.map_cons, List.sum_cons, List.length_cons, Finset.sum_range_succ', ih, add_comm]
    simp

theorem sum_range (l : List ℝ) : l.sum = ∑ k ∈ Finset.range l.length, pr l k := by
  have := sum_map_range l 0 id
  simpa [pr] using this

theorem sum_zipWith_range {α β : Type} (l : List α) (m : List β) (d : α) (e : β) (h : l.length = m.length)
    (f : α → β → ℝ) :
    (List.zipWith f l m).sum = ∑ k ∈ Finset.range l.length, f (l.getD k d) (m.getD k e) := by
  induction l generalizing m with
  | nil => simp
  | cons a l ih =>
    cases m with
    | nil => simp at h
    | cons b m =>
      rw [List.zipWith_cons_cons, List.sum_cons, List.length_cons, Finset.sum_range_succ',
        ih m (by simpa using h), add_comm]
      simp

theorem probs_length (r : List (Flt ℝ)) : (probs r).length = r.length := by simp [probs]

theorem pr_probs (r : List (Flt ℝ)) (k : Nat) : pr (probs r) k = prob (r.getD k .nan) := by
  unfold pr probs
  rw [List.getD_eq_getElem?_getD, List.getElem?_map, List.getD_eq_getElem?_getD]
  cases r[k]? <;> rfl

theorem pr_nonneg {q : List ℝ} (h : ∀ v ∈ q, 0 ≤ v) (k : Nat) : 0 ≤ pr q k := by
  unfold pr
  rw [List.getD_eq_getElem?_getD]
  cases hk : q[k]? with
  | none => simp
  | some v => exact h v (List.mem_of_getElem? hk)

theorem probs_nonneg (r : List (Flt ℝ)) : ∀ v ∈ probs r, 0 ≤ v := by
  intro v hv
  obtain ⟨w, -, rfl⟩ := List.mem_map.1 hv
  exact prob_nonneg w

theorem isProbVec_probs {r : List (Flt ℝ)} (h : IsDist r) : IsProbVec (probs r) := ⟨probs_nonneg r, h.2⟩

theorem pr_le_one {q : List ℝ} (h : IsProbVec q) (k : Nat) : pr q k ≤ 1 := by
  unfold pr
  rw [List.getD_eq_getElem?_getD]
  cases hk : q[k]? with
  | none => simp
  | some v =>
    rw [← h.2]
    exact List.single_le_sum h.1 _ (List.mem_of_getElem? hk)

theorem fexp_prob {v : Flt ℝ} (h : v ≠ .nan ∧ v ≠ .pinf) : fexp v = .fin (prob v) := by
  cases v with
  | fin x => rfl
  | ninf => rfl
  | pinf => exact absurd rfl h.2
  | nan => exact absurd rfl h.1

theorem getD_mem {r : List (Flt ℝ)} {k : Nat} (h : k < r.length) : r.getD k .nan ∈ r := by
  rw [getD_eq _ _ h]; exact List.getElem_mem h

theorem prob_logOf {v : ℝ} (h : 0 ≤ v) : prob (if v = 0 then Flt.ninf else .fin (Real.log v)) = v := by
  split
  · rename_i h0; rw [h0]; rfl
  · rename_i h0; exact Real.exp_log (lt_of_le_of_ne h (Ne.symm h0))

theorem probs_logRow {q : List ℝ} (h : ∀ v ∈ q, 0 ≤ v) : probs (logRow q) = q := by
  unfold probs logRow
  rw [List.map_map]
  conv_rhs => rw [← List.map_id q]
  exact List.map_congr_left fun v hv => prob_logOf (h v hv)

theorem logRow_ok (q : List ℝ) : LogProbs (logRow q) := by
  intro v hv
  obtain ⟨x, -, rfl⟩ := List.mem_map.1 hv
  split <;> simp

theorem logRow_probs {r : List (Flt ℝ)} (h : LogProbs r) : logRow (probs r) = r := by
  unfold probs logRow
  rw [List.map_map]
  conv_rhs => rw [← List.map_id r]
  refine List.map_congr_left fun v hv => ?_
  have := h v hv
  cases v with
  | fin x => simp [prob, Real.exp_ne_zero, Real.log_exp]
  | ninf => simp [prob]
  | pinf => simp at this
  | nan => simp at this

theorem isDist_logRow {q : List ℝ} (h : IsProbVec q) : IsDist (logRow q) :=
  ⟨logRow_ok q, by
    have := probs_logRow h.1
    unfold probs at this
    rw [this]; exact h.2⟩

theorem isDist_ne_nil {r : List (Flt ℝ)} (h : IsDist r) : r ≠ [] := by
  rintro rfl
  have := h.2
  simp at this

/-- The input with one sample for every label. -/
theorem every_ok {r : List (Flt ℝ)} (h : r ≠ []) : ClassInput (everyLabel r.length) (everyRow r) where
  kind := Or.inr rfl
  labels := List.length_pos_iff.2 h
  nonempty := by
    simp only [everyRow]
    intro h0
    rw [List.replicate_eq_nil_iff] at h0
    exact h (List.length_eq_zero_iff.1 h0)
  length := by simp [everyLabel, everyRow]
  rows := by
    intro s hs
    rw [List.eq_of_mem_replicate hs]; rfl
  range := by
    intro v hv
    simp only [everyLabel, List.mem_map, List.mem_range] at hv
    obtain ⟨i, hi, rfl⟩ := hv
    simp only [everyRow]
    omega

/-- The losses of one prediction for every label. -/
theorem every_losses {r : List (Flt ℝ)} {L : List (Flt ℝ)} {g : Nat → Flt ℝ}
    (h : PerSample (fun s k v => s = r → v = g k) (everyLabel r.length) (everyRow r) L) :
    L = (List.range r.length).map g := by
  apply List.ext_getElem?
  intro i
  by_cases hi : i < r.length
  · have h1 : (everyRow r).rows[i]? = some r := by
      simp only [everyRow]
      rw [List.getElem?_replicate, if_pos hi]
    have h2 : (everyLabel r.length).vals[i]? = some (i : Int) := by
      simp only [everyLabel]
      rw [List.getElem?_map, List.getElem?_range hi]; rfl
    obtain ⟨v, hv, e⟩ := h.2 i i r h1 h2
    rw [hv, e rfl, List.getElem?_map, List.getElem?_range hi]; rfl
  · have hl := h.1
    simp only [everyRow, List.length_replicate] at hl
    rw [List.getElem?_eq_none (by omega), List.getElem?_eq_none (by simp; omega)]

theorem perSample_mono {K : Type} {R R' : List (Flt K) → Nat → Flt K → Prop} {y : LabelVec} {p : Mat K} {L : List (Flt K)}
    (h : PerSample R y p L) (hR : ∀ r ∈ p.rows, ∀ k v, R r k v → R' r k v) : PerSample R' y p L := by
  refine ⟨h.1, fun i k r hr hk => ?_⟩
  obtain ⟨v, h1, h2⟩ := h.2 i k r hr hk
  exact ⟨v, h1, hR r (List.mem_of_getElem? hr) k v h2⟩

/-- The expected loss when the losses that count are numbers. -/
theorem expected_fin {q : List ℝ} {L : List (Flt ℝ)} (hl : q.length = L.length) (l : Nat → ℝ)
    (h : ∀ k < q.length, pr q k ≠ 0 → L.getD k .nan = .fin (l k)) :
    expected q L = .fin (∑ k ∈ Finset.range q.length, pr q k * l k) := by
  unfold expected
  have e : List.zipWith (fun (a : ℝ) w => if a = 0 then Flt.fin 0 else (Flt.fin a).mul w) q L =
      ((List.range q.length).map fun k => pr q k * l k).map Flt.fin := by
    apply List.ext_getElem?
    intro i
    by_cases hi : i < q.length
    · have hi' : i < L.length := hl ▸ hi
      rw [List.getElem?_zipWith, List.getElem?_eq_getElem hi, List.getElem?_eq_getElem hi', List.map_map,
        List.getElem?_map, List.getElem?_range hi]
      have hp : pr q i = q[i] := by unfold pr; rw [getD_eq _ _ hi]
      have := h i hi
      rw [getD_eq _ _ hi', hp] at this
      simp only [Option.map_some, Function.comp, hp]
      split
      · rename_i h0; rw [h0, zero_mul]
      · rename_i h0; rw [this h0]; rfl
    · rw [List.getElem?_eq_none (by simp; omega), List.getElem?_eq_none (by simp; omega)]
  rw [e, Flt.sum_fin]
  congr 1

end Mlp.Lemmas
