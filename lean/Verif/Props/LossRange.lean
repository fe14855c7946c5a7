import Verif.Model.LossRound
import Verif.Spec.FloatLoss
import Verif.Props.MeanRound
import Verif.Props.CurveRoundExact
import Verif.Props.Spherical

/-!
# Property C120: ranges of the losses in floating point arithmetic
-/

namespace Mlp.Props
open Mlp.Util Mlp.Frame Mlp.PerfR Mlp.PaperR Mlp.CurveR Mlp.LossR Mlp.Spec Mlp.Lemmas Mlp.Round

section
variable {K : Type} [Field K] [LinearOrder K] [IsStrictOrderedRing K] {rnd : K → K} {sumR : List K → K}

/-- Numbers that are not negative have a sum of at least each of them. -/
theorem tree_ge_leaf (hr : MonoRounding rnd) (t : SumTree K) (h : ∀ v ∈ t.leaves, 0 ≤ v) {v : K} (hv : v ∈ t.leaves)
    (hf : rnd v = v) : v ≤ t.eval rnd := by
  induction t with
  | leaf w => simp [SumTree.leaves] at hv; simp [SumTree.eval, hv]
  | node a b iha ihb =>
    simp only [SumTree.leaves, List.mem_append, SumTree.eval] at hv h ⊢
    have ha := tree_nonneg hr a fun w hw => h w (.inl hw)
    have hb := tree_nonneg hr b fun w hw => h w (.inr hw)
    rw [← hf]
    apply hr.mono
    rcases hv with hv | hv
    · have := iha (fun w hw => h w (.inl hw)) hv; linarith
    · have := ihb (fun w hw => h w (.inr hw)) hv; linarith

theorem sum_ge_mem (hr : MonoRounding rnd) (hs : AddsAlongTrees rnd sumR) {l : List K} (h : ∀ v ∈ l, 0 ≤ v) {v : K}
    (hv : v ∈ l) (hf : rnd v = v) : v ≤ sumR l := by
  obtain ⟨t, hp, e⟩ := hs.2 l (List.ne_nil_of_mem hv)
  rw [e]
  exact tree_ge_leaf hr t (fun w hw => h w (hp.mem_iff.1 hw)) (hp.mem_iff.2 hv) hf

/-- Numbers of at most 1 have a sum of at most their number if that many integers are floats. -/
theorem sum_le_length (hr : MonoRounding rnd) (hs : AddsAlongTrees rnd sumR) {l : List K} (h : ∀ v ∈ l, v ≤ 1)
    (hn : ∀ k : Nat, k ≤ l.length → rnd k = k) : sumR l ≤ l.length := by
  by_cases hne : l = []
  · rw [hne, hs.1]; simp
  · obtain ⟨t, hp, e⟩ := hs.2 l hne
    have := tree_le hr (M := 1) t (by rw [hp.length_eq]; simpa using hn) (fun w hw => h w (hp.mem_iff.1 hw))
    rw [e]
    rw [hp.length_eq] at this
    simpa using this

theorem sum_single (hs : AddsAlongTrees rnd sumR) (v : K) : sumR [v] = v := by
  obtain ⟨t, hp, e⟩ := hs.2 [v] (by simp)
  rw [e]
  cases t with
  | leaf w => simp [SumTree.leaves] at hp; simp [SumTree.eval, hp]
  | node a b =>
    exfalso
    have h1 : ∀ t : SumTree K, 1 ≤ t.leaves.length := by
      intro t
      induction t with
      | leaf => simp [SumTree.leaves]
      | node a b iha ihb => simp [SumTree.leaves]; omega
    have := hp.length_eq
    simp [SumTree.leaves] at this
    have := h1 a
    have := h1 b
    omega

theorem nat_leaves_nonneg {l : List K} (h : ∀ v ∈ l, ∃ k : Nat, v = k) : 0 ≤ l.sum :=
  List.sum_nonneg fun v hv => by obtain ⟨k, rfl⟩ := h v hv; exact Nat.cast_nonneg k

/-- Integers that are not negative are added without error if all integers up to their sum are floats. -/
theorem tree_nat (t : SumTree K) (h : ∀ v ∈ t.leaves, ∃ k : Nat, v = k)
    (hf : ∀ k : Nat, (k : K) ≤ t.leaves.sum → rnd k = k) : t.eval rnd = t.leaves.sum := by
  induction t with
  | leaf w => simp [SumTree.leaves, SumTree.eval]
  | node a b iha ihb =>
    simp only [SumTree.leaves, SumTree.eval, List.mem_append, List.sum_append] at h hf ⊢
    have ha := nat_leaves_nonneg fun v hv => h v (.inl hv)
    have hb := nat_leaves_nonneg fun v hv => h v (.inr hv)
    rw [iha (fun v hv => h v (.inl hv)) fun k hk => hf k (by linarith),
      ihb (fun v hv => h v (.inr hv)) fun k hk => hf k (by linarith)]
    obtain ⟨k, hk⟩ : ∃ k : Nat, (k : K) = (a.leaves ++ b.leaves).sum := by
      have : ∀ l : List K, (∀ v ∈ l, ∃ k : Nat, v = k) → ∃ k : Nat, (k : K) = l.sum := by
        intro l
        induction l with
        | nil => exact fun _ => ⟨0, by simp⟩
        | cons x l ih =>
          intro hl
          obtain ⟨i, hi⟩ := hl x (by simp)
          obtain ⟨j, hj⟩ := ih fun v hv => hl v (by simp [hv])
          exact ⟨i + j, by rw [List.sum_cons, ← hj, hi]; push_cast; rfl⟩
      exact this _ fun v hv => h v (List.mem_append.1 hv)
    rw [List.sum_append] at hk
    rw [← hk]
    exact hf k hk.le

theorem sum_nat (hs : AddsAlongTrees rnd sumR) {l : List K} (h : ∀ v ∈ l, ∃ k : Nat, v = k)
    (hf : ∀ k : Nat, (k : K) ≤ l.sum → rnd k = k) : sumR l = l.sum := by
  by_cases hne : l = []
  · rw [hne, hs.1]; simp
  · obtain ⟨t, hp, e⟩ := hs.2 l hne
    rw [e, tree_nat t (fun w hw => h w (hp.mem_iff.1 hw)) (by rw [hp.sum_eq]; exact hf), hp.sum_eq]

end

variable {L : Lib ℝ}

/-- What `np.exp(v - m)` is for an entry of a row. -/
noncomputable def expShift (L : Lib ℝ) (m : ℝ) : Flt ℝ → ℝ
  | .fin x => L.exp (L.rnd (x - m))
  | _ => 0

theorem fexpR_shift {v : Flt ℝ} (h : v ≠ .nan ∧ v ≠ .pinf) (m : ℝ) :
    fexpR L (rF L.rnd (v.sub (.fin m))) = .fin (expShift L m v) := by
  cases v with
  | fin x => simp [fexpR, rF, expShift, Flt.sub, Flt.neg, Flt.add, sub_eq_add_neg]
  | ninf => rfl
  | pinf => simp at h
  | nan => simp at h

theorem sumFR_fin (f : List ℝ → ℝ) {l : List (Flt ℝ)} {xs : List ℝ} (h : l = xs.map Flt.fin) :
    sumFR f l = .fin (f xs) := by
  subst h
  have h1 : (xs.map Flt.fin).all (fun v : Flt ℝ => v.isFinite) = true := (Flt.all_finite_iff _).2 ⟨xs, rfl⟩
  rw [sumFR, if_pos h1]
  change Flt.fin (f (numbers (finVec xs))) = _
  rw [numbers_fin]

/-- `logsumexp` of a proper row of floats is a float, at least as large as every entry. -/
theorem logsumexpR_ge (hL : GoodLib L) (hE : GoodExpLog L) {r : List (Flt ℝ)} (h : Proper r) (hf : FloatRow L.rnd r) :
    ∃ z : ℝ, logsumexpR L r = .fin z ∧ L.rnd z = z ∧ ∀ x : ℝ, .fin x ∈ r → x ≤ z := by
  obtain ⟨m, hm⟩ := amax_proper h
  have hmem : Flt.fin m ∈ r := by
    rcases (amax_spec r).2 with h2 | h2
    · rwa [hm] at h2
    · rw [hm] at h2; cases h2
  have hle : ∀ x : ℝ, .fin x ∈ r → x ≤ m := by
    intro x hx
    have := (amax_spec r).1 _ hx
    rw [hm] at this
    simpa using this
  have e : (r.map fun v => fexpR L (rF L.rnd (v.sub (.fin m)))) = (r.map (expShift L m)).map Flt.fin := by
    rw [List.map_map]
    apply List.map_congr_left
    intro v hv
    exact fexpR_shift (h.1 v hv) m
  have hs : 1 ≤ L.sum (r.map (expShift L m)) := by
    have h0 : ∀ v ∈ r.map (expShift L m), 0 ≤ v := by
      intro v hv
      obtain ⟨w, -, rfl⟩ := List.mem_map.1 hv
      cases w <;> simp [expShift, hL.exp_nonneg]
    have h1 : (1 : ℝ) ∈ r.map (expShift L m) := by
      refine List.mem_map.2 ⟨_, hmem, ?_⟩
      simp [expShift, hL.rnd.zero, hE.exp_zero]
    exact sum_ge_mem hL.rnd hL.sum h0 h1 hL.rnd.one
  refine ⟨L.rnd (L.log (L.sum (r.map (expShift L m))) + m), ?_, hL.rnd.idem _, ?_⟩
  · unfold logsumexpR
    rw [hm]
    simp only [Flt.isFinite, if_true]
    rw [sumFR_fin _ e]
    simp only [flogR, if_pos (lt_of_lt_of_le one_pos hs), Flt.add_fin, rF]
  · intro x hx
    rw [← hf x hx]
    apply hL.rnd.mono
    have := hle x hx
    have := hE.log_nonneg _ hs
    linarith

/-- Subtracting a float from a float that is not larger. -/
theorem rF_sub_le (hL : GoodLib L) {x z : ℝ} (h : x ≤ z) :
    ∃ w : ℝ, rF L.rnd ((Flt.fin x).sub (.fin z)) = .fin w ∧ L.rnd w = w ∧ w ≤ 0 := by
  refine ⟨L.rnd (x - z), by simp [rF, Flt.sub, Flt.neg, Flt.add, sub_eq_add_neg], hL.rnd.idem _, ?_⟩
  have := hL.rnd.mono (show x - z ≤ 0 by linarith)
  rwa [hL.rnd.zero] at this

theorem normalizeRowsR_eq {p : Mat ℝ} (hc : 1 ≤ p.ncols) : normalizeRowsR L p =
    .ok ⟨p.ncols, p.rows.map fun r => r.map fun v => rF L.rnd (v.sub (logsumexpR L r))⟩ := by
  rw [normalizeRowsR, pyAssert_bind, if_pos (decide_eq_true hc)]; rfl

/-- **C120, `normalize`.**  If every row has only floats and `-inf` in it, not only `-inf`, then `normalize` returns rows of the same
kind in which no entry is positive: no probability exceeds 1, whatever the rounding.  Impossible labels stay impossible, possible ones
possible, and the order of the entries stays. -/
theorem C120_normalize (hL : GoodLib L) (hE : GoodExpLog L) {p : Mat ℝ} (hc : 1 ≤ p.ncols) (hp : ∀ r ∈ p.rows, Proper r)
    (hf : ∀ r ∈ p.rows, FloatRow L.rnd r) :
    ∃ q, normalizeRowsR L p = .ok q ∧ q.ncols = p.ncols ∧
      List.Forall₂ (fun r r' => r'.length = r.length ∧ Proper r' ∧ FloatRow L.rnd r' ∧ AtMostZero r' ∧
        (∀ i : Nat, r'[i]? = some .ninf ↔ r[i]? = some .ninf) ∧
        ∀ (i j : Nat) (x y x' y' : ℝ), r[i]? = some (.fin x) → r[j]? = some (.fin y) → r'[i]? = some (.fin x') →
          r'[j]? = some (.fin y') → x ≤ y → x' ≤ y') p.rows q.rows := by
  refine ⟨_, normalizeRowsR_eq hc, rfl, ?_⟩
  rw [List.forall₂_map_right_iff, List.forall₂_same]
  intro r hr
  obtain ⟨z, hz, hz1, hz2⟩ := logsumexpR_ge hL hE (hp r hr) (hf r hr)
  have key : ∀ v ∈ r, (v = .ninf ∧ rF L.rnd (v.sub (logsumexpR L r)) = .ninf) ∨
      ∃ x w : ℝ, v = .fin x ∧ rF L.rnd (v.sub (logsumexpR L r)) = .fin w ∧ L.rnd w = w ∧ w ≤ 0 := by
    intro v hv
    rw [hz]
    have := (hp r hr).1 v hv
    cases v with
    | fin x =>
      obtain ⟨w, h1, h2, h3⟩ := rF_sub_le hL (hz2 x hv)
      exact .inr ⟨x, w, rfl, h1, h2, h3⟩
    | ninf => exact .inl ⟨rfl, rfl⟩
    | pinf => simp at this
    | nan => simp at this
  refine ⟨by simp, ⟨?_, ?_⟩, ?_, ?_, ?_, ?_⟩
  · intro v hv
    obtain ⟨w, hw, rfl⟩ := List.mem_map.1 hv
    rcases key w hw with ⟨-, h⟩ | ⟨x, u, -, h, -⟩ <;> rw [h] <;> simp
  · obtain ⟨x, hx⟩ := (hp r hr).2
    rcases key _ hx with ⟨h, -⟩ | ⟨y, u, -, h, -⟩
    · cases h
    · exact ⟨u, List.mem_map.2 ⟨_, hx, h⟩⟩
  · intro x hx
    obtain ⟨w, hw, e⟩ := List.mem_map.1 hx
    rcases key w hw with ⟨-, h⟩ | ⟨y, u, -, h, h2, -⟩
    · rw [h] at e; cases e
    · rw [h] at e; cases e; exact h2
  · intro v hv
    obtain ⟨w, hw, rfl⟩ := List.mem_map.1 hv
    rcases key w hw with ⟨-, h⟩ | ⟨x, u, -, h, -, h3⟩
    · exact .inl h
    · exact .inr ⟨u, h3, h⟩
  · intro i
    rw [List.getElem?_map]
    cases hi : r[i]? with
    | none => simp
    | some v =>
      rcases key v (List.mem_of_getElem? hi) with ⟨h1, h2⟩ | ⟨x, u, h1, h2, -⟩
      · rw [Option.map_some, h2, h1]
      · rw [Option.map_some, h2, h1]
        simp
  · intro i j x y x' y' hi hj hi' hj' hxy
    rw [List.getElem?_map, hi, hz] at hi'
    rw [List.getElem?_map, hj, hz] at hj'
    simp only [Option.map_some, Flt.sub, Flt.neg, Flt.add, rF, Option.some.injEq, Flt.fin.injEq] at hi' hj'
    rw [← hi', ← hj']
    exact hL.rnd.mono (by linarith)

/-! ## Brier loss -/

/-- The computed probability. -/
noncomputable def probR (L : Lib ℝ) : Flt ℝ → ℝ
  | .fin x => L.exp x
  | _ => 0

theorem fexpR_prob {v : Flt ℝ} (h : v ≠ .nan ∧ v ≠ .pinf) : fexpR L v = .fin (probR L v) := by
  cases v with
  | fin x => rfl
  | ninf => rfl
  | pinf => simp at h
  | nan => simp at h

/-- The terms that `brier_loss` adds up for a row. -/
noncomputable def brierTerms (L : Lib ℝ) (r : List (Flt ℝ)) (k : Nat) : List ℝ :=
  (List.range r.length).map fun j =>
    L.rnd (L.rnd (probR L (r.getD j .nan) - if j = k then 1 else 0) * L.rnd (probR L (r.getD j .nan) - if j = k then 1 else 0))

theorem brierTermR_fin {v : Flt ℝ} (h : v ≠ .nan ∧ v ≠ .pinf) (b : Bool) : brierTermR L v b =
    .fin (L.rnd (L.rnd (probR L v - if b then 1 else 0) * L.rnd (probR L v - if b then 1 else 0))) := by
  unfold brierTermR
  rw [fexpR_prob h]
  cases b <;> simp [Classif.boolFlt, rF]

theorem brierR_row {r : List (Flt ℝ)} (hr : LogProbs r) (k : Nat) :
    sumFR L.sum (List.zipWith (brierTermR L) r
      ((List.range r.length).map fun (j : Nat) => decide ((j : Int) = (k : Int)))) = .fin (L.sum (brierTerms L r k)) := by
  refine sumFR_fin _ ?_
  apply List.ext_getElem?
  intro j
  by_cases hj : j < r.length
  · unfold brierTerms
    rw [List.getElem?_zipWith, List.getElem?_eq_getElem hj, List.getElem?_map, List.getElem?_range hj, List.map_map,
      List.getElem?_map, List.getElem?_range hj]
    simp only [Option.map_some, Function.comp]
    rw [brierTermR_fin (hr _ (List.getElem_mem hj)), getD_eq _ _ hj]
    by_cases hjk : j = k
    · simp [hjk]
    · simp [hjk]
  · rw [List.getElem?_eq_none (by simp; omega), List.getElem?_eq_none (by simp [brierTerms]; omega)]

/-- The computed factor of `brier_loss`. -/
noncomputable def scaleBrier (L : Lib ℝ) (rescale : Bool) (n : Nat) (x : ℝ) : ℝ :=
  if rescale = true ∧ 1 < n then L.rnd (L.rnd ((n : ℝ) / ((n : ℝ) - 1)) * x) else x

/-- What `brier_loss` computes. -/
theorem brierR_eq {y : LabelVec} {p : Mat ℝ} (h : ClassInput y p) (hp : ∀ r ∈ p.rows, LogProbs r) (rescale : Bool) :
    ∃ l, brierLossR L rescale y p = .ok l ∧
      PerSample (fun r k v => v = .fin (scaleBrier L rescale p.ncols (L.sum (brierTerms L r k)))) y p l := by
  unfold brierLossR
  have hg : GoodLabels (Classif.asInt y) (p.ncols : Int) := ⟨by exact_mod_cast h.labels, rfl, h.range⟩
  rw [validate_ok h, ok_bind]
  simp only []
  rw [oneHot_eq hg, ok_bind]
  have e : List.zipWith (fun (r : List (Flt ℝ)) (b : List Bool) => sumFR L.sum (List.zipWith (brierTermR L) r b))
      p.rows ((Classif.asInt y).vals.map fun v => (List.range p.ncols).map fun (j : Nat) => decide ((j : Int) = v)) =
      List.zipWith (fun (r : List (Flt ℝ)) (v : Int) => sumFR L.sum
        (List.zipWith (brierTermR L) r ((List.range p.ncols).map fun (j : Nat) => decide ((j : Int) = v)))) p.rows y.vals := by
    rw [List.zipWith_map_right]; rfl
  rw [e]
  unfold scaleBrier
  by_cases hs : rescale = true ∧ 1 < p.ncols
  · rw [if_pos (by simpa using hs)]
    refine ⟨_, rfl, ?_⟩
    rw [List.map_zipWith]
    refine perSample_of h _ ?_
    intro r hr k hk
    rw [← h.rows r hr, brierR_row (hp r hr), h.rows r hr, if_pos hs]
    simp [rF]
  · rw [if_neg (by simpa using hs)]
    refine ⟨_, rfl, perSample_of h _ ?_⟩
    intro r hr k hk
    rw [← h.rows r hr, brierR_row (hp r hr), h.rows r hr, if_neg hs]

theorem probR_range (hL : GoodLib L) (hE : GoodExpLog L) {r : List (Flt ℝ)} (h : AtMostZero r) {v : Flt ℝ} (hv : v ∈ r) :
    0 ≤ probR L v ∧ probR L v ≤ 1 := by
  rcases h v hv with rfl | ⟨x, hx, rfl⟩
  · simp [probR]
  · exact ⟨hL.exp_nonneg x, hE.exp_le_one x hx⟩

theorem sq_rnd_range (hr : FloatRounding L.rnd) {d : ℝ} (h : -1 ≤ d) (h1 : d ≤ 1) :
    0 ≤ L.rnd (L.rnd d * L.rnd d) ∧ L.rnd (L.rnd d * L.rnd d) ≤ 1 := by
  have a1 := hr.mono h1
  have a2 := hr.mono h
  rw [hr.one] at a1
  rw [hr.neg, hr.one] at a2
  refine ⟨hr.nonneg (mul_self_nonneg _), ?_⟩
  rw [← hr.one]
  exact hr.mono (by nlinarith)

theorem brierTerms_range (hL : GoodLib L) (hE : GoodExpLog L) {r : List (Flt ℝ)} (h : AtMostZero r) (k : Nat) :
    ∀ t ∈ brierTerms L r k, 0 ≤ t ∧ t ≤ 1 := by
  intro t ht
  obtain ⟨j, hj, rfl⟩ := List.mem_map.1 ht
  have hm := getD_mem (r := r) (List.mem_range.1 hj)
  obtain ⟨h0, h1⟩ := probR_range hL hE h hm
  refine sq_rnd_range hL.rnd ?_ ?_ <;> split_ifs <;> linarith

theorem atMostZero_logProbs {r : List (Flt ℝ)} (h : AtMostZero r) : LogProbs r := by
  intro v hv
  rcases h v hv with rfl | ⟨x, -, rfl⟩ <;> simp

/-- **C120, Brier loss.**  For log-probabilities up to 0 every loss is a number, not negative and at most the number of labels, times the
rounded factor if rescaled. -/
theorem C120_brier (hL : GoodLib L) (hE : GoodExpLog L) {y : LabelVec} {p : Mat ℝ} (h : ClassInput y p)
    (hp : ∀ r ∈ p.rows, AtMostZero r) (hn : ∀ k : Nat, k ≤ p.ncols → L.rnd k = k) (rescale : Bool) :
    ∃ l, brierLossR L rescale y p = .ok l ∧ PerSample (fun _ _ v => ∃ x : ℝ, v = .fin x ∧ 0 ≤ x ∧
      x ≤ if rescale = true ∧ 1 < p.ncols then L.rnd (L.rnd ((p.ncols : ℝ) / ((p.ncols : ℝ) - 1)) * p.ncols) else p.ncols) y p l := by
  obtain ⟨l, hl, hs⟩ := brierR_eq (L := L) h (fun r hr => atMostZero_logProbs (hp r hr)) rescale
  refine ⟨l, hl, perSample_mono hs ?_⟩
  rintro r hr k v rfl
  have ht := brierTerms_range hL hE (hp r hr) k
  have h0 := sum_nonneg_of_trees hL.rnd hL.sum fun t h => (ht t h).1
  have hlen : (brierTerms L r k).length = p.ncols := by simp [brierTerms, h.rows r hr]
  have h1 := sum_le_length hL.rnd hL.sum (fun t h => (ht t h).2) (by rw [hlen]; exact hn)
  rw [hlen] at h1
  refine ⟨_, rfl, ?_⟩
  unfold scaleBrier
  split_ifs with hc
  · have hpos : (0 : ℝ) ≤ (p.ncols : ℝ) / ((p.ncols : ℝ) - 1) := by
      have : (1 : ℝ) < p.ncols := by exact_mod_cast hc.2
      exact div_nonneg (by linarith) (by linarith)
    have hr0 := hL.rnd.nonneg hpos
    exact ⟨hL.rnd.nonneg (mul_nonneg hr0 h0), hL.rnd.mono (mul_le_mul_of_nonneg_left h1 hr0)⟩
  · exact ⟨h0, h1⟩

theorem certain_terms (hL : GoodLib L) (hE : GoodExpLog L) {r : List (Flt ℝ)} {j : Nat} (hc : Certain r j) (k : Nat) :
    brierTerms L r k = (List.range r.length).map fun i => if (i = j ↔ i = k) then 0 else 1 := by
  unfold brierTerms
  refine List.map_congr_left fun i hi => ?_
  rw [hc.2 i (List.mem_range.1 hi)]
  have hm : L.rnd (-1) = -1 := by rw [hL.rnd.neg, hL.rnd.one]
  by_cases h1 : i = j <;> by_cases h2 : i = k
  · rw [if_pos h1, if_pos h2, if_pos (by tauto)]
    simp [probR, hE.exp_zero, hL.rnd.zero]
  · rw [if_pos h1, if_neg h2, if_neg (by tauto)]
    simp [probR, hE.exp_zero, hL.rnd.one]
  · rw [if_neg h1, if_pos h2, if_neg (by tauto)]
    simp [probR, hL.rnd.one, hm]
  · rw [if_neg h1, if_neg h2, if_pos (by tauto)]
    simp [probR, hL.rnd.zero]

theorem certain_logProbs {r : List (Flt ℝ)} {j : Nat} (hc : Certain r j) : AtMostZero r := by
  intro v hv
  obtain ⟨i, hi, rfl⟩ := List.mem_iff_getElem.1 hv
  have := hc.2 i hi
  rw [getD_eq _ _ hi] at this
  rw [this]
  split_ifs
  · exact .inr ⟨0, le_rfl, rfl⟩
  · exact .inl rfl

/-- **C120, Brier loss of certain predictions.**  Certainty of the true label costs exactly 0, certainty of another label exactly 2, times
the rounded factor if rescaled. -/
theorem C120_brier_certain (hL : GoodLib L) (hE : GoodExpLog L) {y : LabelVec} {p : Mat ℝ} (h : ClassInput y p)
    (hp : ∀ r ∈ p.rows, ∃ j, Certain r j) (rescale : Bool) :
    ∃ l, brierLossR L rescale y p = .ok l ∧ PerSample (fun r k v => (Certain r k → v = .fin 0) ∧
      (CertainlyNot r k → v = .fin (if rescale = true ∧ 1 < p.ncols then
        2 * L.rnd ((p.ncols : ℝ) / ((p.ncols : ℝ) - 1)) else 2))) y p l := by
  obtain ⟨l, hl, hs⟩ := brierR_eq (L := L) h
    (fun r hr => atMostZero_logProbs (certain_logProbs (hp r hr).choose_spec)) rescale
  refine ⟨l, hl, ?_⟩
  refine ⟨hs.1, fun i k r hi hk => ?_⟩
  obtain ⟨v, hv, rfl⟩ := hs.2 i k r hi hk
  have hr := List.mem_of_getElem? hi
  have hkn : k < r.length := by
    rw [h.rows r hr]; exact_mod_cast (h.range _ (List.mem_of_getElem? hk)).2
  refine ⟨_, hv, fun hc => ?_, fun hc => ?_⟩
  · have e : brierTerms L r k = List.replicate r.length 0 := by
      rw [certain_terms hL hE hc k, List.eq_replicate_iff]
      refine ⟨by simp, fun b hb => ?_⟩
      obtain ⟨i, -, rfl⟩ := List.mem_map.1 hb
      simp
    have e2 : L.sum (brierTerms L r k) = 0 := by
      rw [e, sum_nat hL.sum (fun v hv => ⟨0, by simpa using (List.mem_replicate.1 hv).2⟩)]
      · simp
      · intro k hk
        have h0 : (k : ℝ) = 0 := le_antisymm (by simpa using hk) (Nat.cast_nonneg k)
        rw [h0, hL.rnd.zero]
    unfold scaleBrier
    rw [e2, mul_zero, hL.rnd.zero, ite_self]
  · obtain ⟨j, hj, hc⟩ := hc
    have e1 : (brierTerms L r k).sum = 2 := by
      rw [certain_terms hL hE hc k, Lemmas.sum_map_range _ 0, List.length_range]
      have : ∀ i ∈ Finset.range r.length, (if ((List.range r.length).getD i 0 = j ↔ (List.range r.length).getD i 0 = k) then (0 : ℝ)
          else 1) = (if i = j then 1 else 0) + if i = k then 1 else 0 := by
        intro i hi
        rw [getD_eq _ _ (by simpa using hi), List.getElem_range]
        by_cases h1 : i = j <;> by_cases h2 : i = k
        · omega
        · simp [h1, hj]
        · simp [h2, hj, Ne.symm hj]
        · simp [h1, h2]
      rw [Finset.sum_congr rfl this, Finset.sum_add_distrib, Finset.sum_ite_eq' (Finset.range r.length) j,
        Finset.sum_ite_eq' (Finset.range r.length) k, if_pos (Finset.mem_range.2 hc.1), if_pos (Finset.mem_range.2 hkn)]
      norm_num
    have e2 : L.sum (brierTerms L r k) = 2 := by
      rw [sum_nat hL.sum, e1]
      · rw [certain_terms hL hE hc k]
        intro v hv
        obtain ⟨i, -, rfl⟩ := List.mem_map.1 hv
        split_ifs
        · exact ⟨0, by simp⟩
        · exact ⟨1, by simp⟩
      · intro m hm
        rw [e1] at hm
        have : m ≤ 2 := by exact_mod_cast hm
        interval_cases m
        · simpa using hL.rnd.zero
        · simpa using hL.rnd.one
        · have := hL.double 1
          rw [hL.rnd.one] at this
          simpa using this
    unfold scaleBrier
    rw [e2]
    congr 1
    split_ifs
    · rw [mul_comm, hL.double, hL.rnd.idem]
    · rfl

/-! ## Spherical loss -/

theorem doubled_row (hL : GoodLib L) {r : List (Flt ℝ)} (h : Proper r) (hf : FloatRow L.rnd r) :
    (r.map fun v => rF L.rnd ((Flt.fin 2).mul v)) = r.map (fun v => (Flt.fin 2).mul v) ∧
      FloatRow L.rnd (r.map fun v => (Flt.fin 2).mul v) := by
  have key : ∀ v ∈ r, rF L.rnd ((Flt.fin 2).mul v) = (Flt.fin 2).mul v := by
    intro v hv
    have := h.1 v hv
    cases v with
    | fin x => simp only [Flt.mul_fin, rF, hL.double, hf x hv]
    | ninf => rw [two_ninf]; rfl
    | pinf => simp at this
    | nan => simp at this
  refine ⟨List.map_congr_left key, fun x hx => ?_⟩
  obtain ⟨v, hv, e⟩ := List.mem_map.1 hx
  have := key v hv
  rw [e] at this
  simpa [rF] using this

/-- The logarithm of the norm is at least as large as every entry. -/
theorem normalizer_ge (hL : GoodLib L) (hE : GoodExpLog L) {r : List (Flt ℝ)} (h : Proper r) (hf : FloatRow L.rnd r) :
    ∃ z : ℝ, rF L.rnd ((Flt.fin (1 / 2)).mul (logsumexpR L (r.map fun v => rF L.rnd ((Flt.fin 2).mul v)))) = .fin z ∧
      ∀ x : ℝ, .fin x ∈ r → x ≤ z := by
  obtain ⟨e, h2⟩ := doubled_row hL h hf
  obtain ⟨z, hz, -, hz2⟩ := logsumexpR_ge hL hE (proper_double h) h2
  rw [e, hz]
  refine ⟨L.rnd (1 / 2 * z), by simp [rF], fun x hx => ?_⟩
  rw [← hf x hx]
  apply hL.rnd.mono
  have := hz2 (2 * x) (List.mem_map.2 ⟨_, hx, by simp⟩)
  linarith

/-- The computed loss of one sample before rescaling. -/
noncomputable def sphereEntry (L : Lib ℝ) (r : List (Flt ℝ)) (k : Nat) : Flt ℝ :=
  (fexpR L (rF L.rnd (Flt.sub (r.getD k .nan)
    (rF L.rnd ((Flt.fin (1 / 2)).mul (logsumexpR L (r.map fun v => rF L.rnd ((Flt.fin 2).mul v)))))))).neg

/-- What `spherical_loss` computes. -/
theorem sphereR_eq {y : LabelVec} {p : Mat ℝ} (h : ClassInput y p) (rescale : Bool) :
    ∃ l, sphericalLossR L rescale y p = .ok l ∧ PerSample (fun r k v => v = if rescale then
      rF L.rnd ((rF L.rnd ((Flt.fin 1).add (sphereEntry L r k))).div (.fin (sphereScaleR L p.ncols))) else sphereEntry L r k) y p l := by
  unfold sphericalLossR
  rw [validate_ok h, ok_bind]
  simp only []
  rw [pick_ok h, ok_bind]
  have e : List.zipWith (fun a b => (fexpR L (rF L.rnd (Flt.sub a b))).neg)
      (List.zipWith (fun (r : List (Flt ℝ)) (k : Int) => r.getD k.toNat .nan) p.rows y.vals)
      (p.rows.map fun r => rF L.rnd ((Flt.fin (1 / 2)).mul (logsumexpR L (r.map fun v => rF L.rnd ((Flt.fin 2).mul v))))) =
      List.zipWith (fun (r : List (Flt ℝ)) (k : Int) => sphereEntry L r k.toNat) p.rows y.vals := by
    apply List.ext_getElem?
    intro i
    rw [List.getElem?_zipWith, List.getElem?_zipWith, List.getElem?_zipWith, List.getElem?_map]
    cases hr : p.rows[i]? with
    | none => rfl
    | some r =>
      cases hk : y.vals[i]? with
      | none => rfl
      | some k => rfl
  rw [e]
  cases rescale
  · refine ⟨_, rfl, perSample_of h _ fun r hr k hk => ?_⟩
    simp
  · refine ⟨_, rfl, ?_⟩
    rw [List.map_zipWith]
    refine perSample_of h _ fun r hr k hk => ?_
    simp

theorem sphereScaleR_pos (hL : GoodLib L) (hE : GoodExpLog L) (n : Nat) : 0 < sphereScaleR L n := by
  unfold sphereScaleR
  split_ifs with h
  · exact hL.rnd.pos _ (by have := hE.sqrt_nat n h; linarith)
  · norm_num

theorem sphereEntry_range (hL : GoodLib L) (hE : GoodExpLog L) {r : List (Flt ℝ)} (h : Proper r) (hf : FloatRow L.rnd r) {k : Nat}
    (hk : k < r.length) : ∃ x : ℝ, sphereEntry L r k = .fin x ∧ -1 ≤ x ∧ x ≤ 0 := by
  obtain ⟨z, hz, hz2⟩ := normalizer_ge hL hE h hf
  unfold sphereEntry
  rw [hz]
  have hm := getD_mem (r := r) hk
  have := h.1 _ hm
  cases hv : r.getD k .nan with
  | fin x =>
    rw [hv] at hm
    obtain ⟨w, h1, -, h3⟩ := rF_sub_le hL (hz2 x hm)
    rw [h1]
    exact ⟨-L.exp w, rfl, by linarith [hE.exp_le_one w h3], by linarith [hL.exp_nonneg w]⟩
  | ninf => exact ⟨0, by simp [Flt.sub, Flt.add, Flt.neg, rF, fexpR], by norm_num, le_rfl⟩
  | pinf => exact absurd hv this.2
  | nan => exact absurd hv this.1

/-- **C120, spherical loss.**  For rows of floats and `-inf`, not only `-inf`, normalised or not, every loss is a number between -1 and 0, and
after rescaling between 0 and the rounded `1/c`, `c` being the computed scale, which is positive. -/
theorem C120_sphere (hL : GoodLib L) (hE : GoodExpLog L) {y : LabelVec} {p : Mat ℝ} (h : ClassInput y p)
    (hp : ∀ r ∈ p.rows, Proper r) (hf : ∀ r ∈ p.rows, FloatRow L.rnd r) (rescale : Bool) :
    0 < sphereScaleR L p.ncols ∧ ∃ l, sphericalLossR L rescale y p = .ok l ∧ PerSample (fun _ _ v => ∃ x : ℝ, v = .fin x ∧
      if rescale then 0 ≤ x ∧ x ≤ L.rnd (1 / sphereScaleR L p.ncols) else -1 ≤ x ∧ x ≤ 0) y p l := by
  have hc := sphereScaleR_pos hL hE p.ncols
  refine ⟨hc, ?_⟩
  obtain ⟨l, hl, hs⟩ := sphereR_eq (L := L) h rescale
  refine ⟨l, hl, hs.1, fun i k r hi hk => ?_⟩
  obtain ⟨v, hv, rfl⟩ := hs.2 i k r hi hk
  have hr := List.mem_of_getElem? hi
  have hkn : k < r.length := by
    rw [h.rows r hr]; exact_mod_cast (h.range _ (List.mem_of_getElem? hk)).2
  obtain ⟨x, hx, h0, h1⟩ := sphereEntry_range hL hE (hp r hr) (hf r hr) hkn
  refine ⟨_, hv, ?_⟩
  cases rescale
  · exact ⟨x, by simp [hx], by simp [h0, h1]⟩
  · refine ⟨L.rnd (L.rnd (1 + x) / sphereScaleR L p.ncols), by simp [hx, rF, Flt.div, hc.ne'], ?_⟩
    simp only [if_true]
    have a0 := hL.rnd.nonneg (show 0 ≤ 1 + x by linarith)
    have a1 := hL.rnd.mono (show 1 + x ≤ 1 by linarith)
    rw [hL.rnd.one] at a1
    exact ⟨hL.rnd.nonneg (div_nonneg a0 hc.le), hL.rnd.mono (div_le_div_of_nonneg_right a1 hc.le)⟩

theorem certain_proper {r : List (Flt ℝ)} {j : Nat} (hc : Certain r j) : Proper r ∧ ∀ x : ℝ, .fin x ∈ r → x = 0 := by
  refine ⟨⟨atMostZero_logProbs (certain_logProbs hc), 0, ?_⟩, ?_⟩
  · have := hc.2 j hc.1
    rw [if_pos rfl, getD_eq _ _ hc.1] at this
    rw [← this]
    exact List.getElem_mem _
  · intro x hx
    obtain ⟨i, hi, e⟩ := List.mem_iff_getElem.1 hx
    have := hc.2 i hi
    rw [getD_eq _ _ hi, e] at this
    split_ifs at this
    cases this; rfl

/-- `logsumexp` of a certain prediction is 0. -/
theorem logsumexpR_certain (hL : GoodLib L) (hE : GoodExpLog L) {r : List (Flt ℝ)} {j : Nat} (hc : Certain r j) :
    logsumexpR L r = .fin 0 := by
  obtain ⟨hp, h0⟩ := certain_proper hc
  obtain ⟨m, hm⟩ := amax_proper hp
  have hm0 : m = 0 := by
    rcases (amax_spec r).2 with h2 | h2
    · rw [hm] at h2; exact h0 m h2
    · rw [hm] at h2; cases h2
  subst hm0
  have e : (r.map fun v => fexpR L (rF L.rnd (v.sub (.fin 0)))) = (r.map (expShift L 0)).map Flt.fin := by
    rw [List.map_map]
    exact List.map_congr_left fun v hv => fexpR_shift (hp.1 v hv) 0
  have e2 : r.map (expShift L 0) = (List.range r.length).map fun i => if i = j then (1 : ℝ) else 0 := by
    apply List.ext_getElem (by simp)
    intro i hi hi'
    simp only [List.length_map] at hi
    have := hc.2 i hi
    rw [getD_eq _ _ hi] at this
    simp only [List.getElem_map, List.getElem_range, this]
    split_ifs <;> simp [expShift, hL.rnd.zero, hE.exp_zero]
  have e3 : (r.map (expShift L 0)).sum = 1 := by
    rw [e2, Lemmas.sum_map_range _ 0, List.length_range]
    have : ∀ i ∈ Finset.range r.length, (if (List.range r.length).getD i 0 = j then (1 : ℝ) else 0) = if i = j then 1 else 0 := by
      intro i hi
      rw [getD_eq _ _ (by simpa using hi), List.getElem_range]
    rw [Finset.sum_congr rfl this, Finset.sum_ite_eq' (Finset.range r.length) j, if_pos (Finset.mem_range.2 hc.1)]
  have e4 : L.sum (r.map (expShift L 0)) = 1 := by
    rw [sum_nat hL.sum, e3]
    · rw [e2]
      intro v hv
      obtain ⟨i, -, rfl⟩ := List.mem_map.1 hv
      split_ifs
      · exact ⟨1, by simp⟩
      · exact ⟨0, by simp⟩
    · intro k hk
      rw [e3] at hk
      have : k ≤ 1 := by exact_mod_cast hk
      interval_cases k
      · simpa using hL.rnd.zero
      · simpa using hL.rnd.one
  unfold logsumexpR
  rw [hm]
  simp only [Flt.isFinite, if_true]
  rw [sumFR_fin _ e, e4]
  simp [flogR, hE.log_one, rF, hL.rnd.zero]

/-- **C120, `normalize` of certain predictions.**  They are returned unchanged. -/
theorem C120_normalize_certain (hL : GoodLib L) (hE : GoodExpLog L) {p : Mat ℝ} (hc : 1 ≤ p.ncols)
    (hp : ∀ r ∈ p.rows, ∃ j, Certain r j) : normalizeRowsR L p = .ok p := by
  rw [normalizeRowsR_eq hc]
  have : (p.rows.map fun r => r.map fun v => rF L.rnd (v.sub (logsumexpR L r))) = p.rows := by
    conv_rhs => rw [← List.map_id p.rows]
    refine List.map_congr_left fun r hr => ?_
    obtain ⟨j, hj⟩ := hp r hr
    rw [logsumexpR_certain hL hE hj]
    conv_rhs => rw [id, ← List.map_id r]
    refine List.map_congr_left fun v hv => ?_
    rcases certain_logProbs hj v hv with rfl | ⟨x, -, rfl⟩
    · rfl
    · rw [(certain_proper hj).2 x hv]
      simp [rF, hL.rnd.zero]
  rw [this]

/-- **C120, spherical loss of certain predictions.**  Certainty of the true label costs exactly -1, or 0 after rescaling; certainty of
another label exactly 0, or the rounded `1/c` after rescaling. -/
theorem C120_sphere_certain (hL : GoodLib L) (hE : GoodExpLog L) {y : LabelVec} {p : Mat ℝ} (h : ClassInput y p)
    (hp : ∀ r ∈ p.rows, ∃ j, Certain r j) (rescale : Bool) :
    ∃ l, sphericalLossR L rescale y p = .ok l ∧ PerSample (fun r k v =>
      (Certain r k → v = .fin (if rescale then 0 else -1)) ∧
      (CertainlyNot r k → v = .fin (if rescale then L.rnd (1 / sphereScaleR L p.ncols) else 0))) y p l := by
  have hc := sphereScaleR_pos hL hE p.ncols
  obtain ⟨l, hl, hs⟩ := sphereR_eq (L := L) h rescale
  refine ⟨l, hl, hs.1, fun i k r hi hk => ?_⟩
  obtain ⟨v, hv, rfl⟩ := hs.2 i k r hi hk
  have hr := List.mem_of_getElem? hi
  have hkn : k < r.length := by
    rw [h.rows r hr]; exact_mod_cast (h.range _ (List.mem_of_getElem? hk)).2
  obtain ⟨j, hj⟩ := hp r hr
  have e1 : (r.map fun v => rF L.rnd ((Flt.fin 2).mul v)) = r := by
    conv_rhs => rw [← List.map_id r]
    refine List.map_congr_left fun v hv => ?_
    rcases certain_logProbs hj v hv with rfl | ⟨x, -, rfl⟩
    · rw [two_ninf]; rfl
    · rw [(certain_proper hj).2 x hv]
      simp [rF, hL.rnd.zero]
  have e2 : sphereEntry L r k = .fin (if k = j then -1 else 0) := by
    unfold sphereEntry
    rw [e1, logsumexpR_certain hL hE hj, hj.2 k hkn]
    split_ifs
    · simp [rF, hL.rnd.zero, fexpR, hE.exp_zero]
    · simp [rF, hL.rnd.zero, fexpR, Flt.sub, Flt.add, Flt.neg]
  have uniq : ∀ a b, Certain r a → Certain r b → a = b := by
    intro a b ha hb
    have h1 := ha.2 a ha.1
    have h2 := hb.2 a ha.1
    rw [h1, if_pos rfl] at h2
    split_ifs at h2 with hab
    exact hab
  refine ⟨_, hv, fun hk' => ?_, fun hk' => ?_⟩
  · rw [e2, if_pos (uniq _ _ hk' hj)]
    cases rescale
    · simp
    · simp [rF, hL.rnd.zero, Flt.div, hc.ne']
  · obtain ⟨i, hi, hi'⟩ := hk'
    have hkj : k ≠ j := by rw [← uniq _ _ hi' hj]; exact hi.symm
    rw [if_neg hkj] at e2
    rw [e2]
    cases rescale
    · simp
    · simp [rF, hL.rnd.one, Flt.div, hc.ne']

end Mlp.Props
