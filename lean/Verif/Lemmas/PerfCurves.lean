import Verif.Model.PerfCurves
import Verif.Spec.Curves
import Verif.Lemmas.Curve
import Verif.Lemmas.PermInv

/-! # Lemmas about the binary count curves -/

set_option linter.unusedSectionVars false

namespace Mlp.Lemmas
open Mlp.Util Mlp.Spec Mlp.Perf

section
variable {K : Type} [Field K] [LinearOrder K] [IsStrictOrderedRing K]

/-! ## Weighted sums -/

theorem wsum_nil (p : Sample K → Bool) : wsum ([] : List (Sample K)) p = 0 := rfl

theorem wsum_cons (a : Sample K) (S : List (Sample K)) (p : Sample K → Bool) :
    wsum (a :: S) p = (if p a then a.weight else 0) + wsum S p := by simp [wsum]

theorem wsum_append (S S' : List (Sample K)) (p : Sample K → Bool) :
    wsum (S ++ S') p = wsum S p + wsum S' p := by simp [wsum]

theorem wsum_perm {S S' : List (Sample K)} (h : S.Perm S') (p : Sample K → Bool) : wsum S p = wsum S' p :=
  (h.map _).sum_eq

theorem wsum_congr {S : List (Sample K)} {p q : Sample K → Bool} (h : ∀ s ∈ S, p s = q s) :
    wsum S p = wsum S q := by
  unfold wsum
  congr 1
  exact List.map_congr_left fun s hs => by rw [h s hs]

theorem wsum_split (S : List (Sample K)) (p q : Sample K → Bool) :
    wsum S p = wsum S (fun s => p s && q s) + wsum S (fun s => p s && !q s) := by
  induction S with
  | nil => simp [wsum_nil]
  | cons a S ih =>
    rw [wsum_cons, wsum_cons, wsum_cons, ih]
    cases p a <;> cases q a <;> simp <;> ring

theorem wsum_zero {S : List (Sample K)} {p : Sample K → Bool} (h : ∀ s ∈ S, p s = false) : wsum S p = 0 := by
  rw [wsum_congr (q := fun _ => false) h]
  induction S with
  | nil => rfl
  | cons a S ih => rw [wsum_cons, ih fun s hs => h s (by simp [hs])]; simp

theorem wsum_nonneg {S : List (Sample K)} (hw : ∀ s ∈ S, 0 < s.weight) (p : Sample K → Bool) : 0 ≤ wsum S p := by
  induction S with
  | nil => exact le_rfl
  | cons a S ih =>
    rw [wsum_cons]
    have h1 := ih fun s hs => hw s (by simp [hs])
    have h2 := hw a (by simp)
    split <;> linarith

theorem wsum_pos {S : List (Sample K)} (hw : ∀ s ∈ S, 0 < s.weight) {p : Sample K → Bool} {a : Sample K}
    (ha : a ∈ S) (hp : p a = true) : 0 < wsum S p := by
  induction S with
  | nil => simp at ha
  | cons b S ih =>
    rw [wsum_cons]
    have h1 := wsum_nonneg (fun s hs => hw s (by simp [hs])) p (S := S)
    have h2 := hw b (by simp)
    rcases List.mem_cons.1 ha with rfl | ha
    · rw [hp]; simp only [if_true]; linarith
    · have := ih (fun s hs => hw s (by simp [hs])) ha
      split <;> linarith

theorem wsum_mono {S : List (Sample K)} (hw : ∀ s ∈ S, 0 < s.weight) {p q : Sample K → Bool}
    (h : ∀ s ∈ S, p s = true → q s = true) : wsum S p ≤ wsum S q := by
  induction S with
  | nil => exact le_rfl
  | cons a S ih =>
    rw [wsum_cons, wsum_cons]
    have h1 := ih (fun s hs => hw s (by simp [hs])) fun s hs => h s (by simp [hs])
    have h2 := hw a (by simp)
    have h3 := h a (by simp)
    cases hp : p a
    · simp only [Bool.false_eq_true, if_false]
      split <;> linarith
    · rw [h3 hp]; simp only [if_true]; linarith

theorem wsum_eq_zero_iff {S : List (Sample K)} (hw : ∀ s ∈ S, 0 < s.weight) (p : Sample K → Bool) :
    wsum S p = 0 ↔ ∀ s ∈ S, p s = false := by
  refine ⟨fun h s hs => ?_, wsum_zero⟩
  by_contra hc
  rw [Bool.not_eq_false] at hc
  exact absurd h (wsum_pos hw hs hc).ne'

/-! ## Sorting -/

theorem argsort_spec (s : List K) : (argsortStable s).Perm (List.range s.length) ∧
    (reorder (argsortStable s) s).Pairwise (· ≤ ·) := by
  have hp : (s.zipIdx.mergeSort fun a b => decide (a.1 ≤ b.1)).Perm s.zipIdx := List.mergeSort_perm _ _
  constructor
  · unfold argsortStable
    have := hp.map fun p => p.2
    rwa [show (s.zipIdx.map fun p => p.2) = List.range s.length by
      rw [List.range_eq_range']; exact List.zipIdx_map_snd 0 s] at this
  · have hsort : (s.zipIdx.mergeSort fun a b => decide (a.1 ≤ b.1)).Pairwise fun a b => a.1 ≤ b.1 := by
      have := List.pairwise_mergeSort (le := fun (a b : K × Nat) => decide (a.1 ≤ b.1))
        (by intro a b c; simp only [decide_eq_true_eq]; exact le_trans)
        (by intro a b; simp only [Bool.or_eq_true, decide_eq_true_eq]; exact le_total _ _) s.zipIdx
      exact this.imp fun h => by simpa using h
    have e : reorder (argsortStable s) s =
        (s.zipIdx.mergeSort fun a b => decide (a.1 ≤ b.1)).map fun p => p.1 := by
      unfold reorder argsortStable
      rw [List.filterMap_map]
      have : ∀ p ∈ s.zipIdx.mergeSort (fun a b => decide (a.1 ≤ b.1)), s[p.2]? = some p.1 := by
        intro p hpm
        have := List.mem_zipIdx_iff_getElem?.1 (hp.mem_iff.1 hpm)
        exact this
      rw [← List.filterMap_eq_map]
      exact List.filterMap_congr fun p hpm => this p hpm
    rw [e, List.pairwise_map]
    exact hsort

/-- The order of decreasing score that the code uses. -/
def descIdx (s : List K) : List Nat := (argsortStable s).reverse

theorem descIdx_perm (s : List K) : (descIdx s).Perm (List.range s.length) :=
  (List.reverse_perm _).trans (argsort_spec s).1

theorem reorder_reverse {α : Type} (σ : List Nat) (l : List α) : reorder σ.reverse l = (reorder σ l).reverse := by
  unfold reorder; rw [List.filterMap_reverse]

theorem descIdx_sorted (s : List K) : (reorder (descIdx s) s).Pairwise (· ≥ ·) := by
  unfold descIdx
  rw [reorder_reverse, List.pairwise_reverse]
  exact (argsort_spec s).2

theorem takeIdx_reorder {β : Type} {σ : List Nat} {l : List β} (h : ∀ i ∈ σ, i < l.length) :
    takeIdx σ l = .ok (reorder σ l) := takeIdx_ok l σ h

/-! ## Samples -/

theorem samples_length {y : List Bool} {s w : List K} (h1 : s.length = y.length) (h2 : w.length = y.length) :
    (samples y s w).length = y.length := by
  simp [samples, h1, h2]

theorem samples_scores {y : List Bool} {s w : List K} (h1 : s.length = y.length) (h2 : w.length = y.length) :
    (samples y s w).map (fun a => a.score) = s := by
  unfold samples
  induction y generalizing s w with
  | nil => rw [List.eq_nil_of_length_eq_zero h1]; rfl
  | cons b y ih =>
    match s, w, h1, h2 with
    | a :: s, v :: w, h1, h2 =>
      simp only [List.zip_cons_cons, List.zipWith_cons_cons, List.map_cons]
      rw [ih (by simpa using h1) (by simpa using h2)]

theorem samples_labels {y : List Bool} {s w : List K} (h1 : s.length = y.length) (h2 : w.length = y.length) :
    (samples y s w).map (fun a => a.label) = y := by
  unfold samples
  induction y generalizing s w with
  | nil => rfl
  | cons b y ih =>
    match s, w, h1, h2 with
    | a :: s, v :: w, h1, h2 =>
      simp only [List.zip_cons_cons, List.zipWith_cons_cons, List.map_cons]
      rw [ih (by simpa using h1) (by simpa using h2)]

theorem samples_weights {y : List Bool} {s w : List K} (h1 : s.length = y.length) (h2 : w.length = y.length) :
    (samples y s w).map (fun a => a.weight) = w := by
  unfold samples
  induction y generalizing s w with
  | nil => rw [List.eq_nil_of_length_eq_zero h2]; rfl
  | cons b y ih =>
    match s, w, h1, h2 with
    | a :: s, v :: w, h1, h2 =>
      simp only [List.zip_cons_cons, List.zipWith_cons_cons, List.map_cons]
      rw [ih (by simpa using h1) (by simpa using h2)]

/-! ## Cumulative sums at the ends of the groups of equal scores -/

theorem cumsumFrom_get (acc : K) (l : List K) (i : Nat) (h : i < l.length) :
    (cumsumFrom acc l)[i]? = some (acc + (l.take (i + 1)).sum) := by
  induction l generalizing acc i with
  | nil => simp at h
  | cons a l ih =>
    cases i with
    | zero => simp [cumsumFrom]
    | succ i =>
      rw [cumsumFrom, List.getElem?_cons_succ, ih _ _ (by simpa using h), List.take_succ_cons, List.sum_cons,
        add_assoc]

theorem cumsumFrom_length (acc : K) (l : List K) : (cumsumFrom acc l).length = l.length := by
  induction l generalizing acc with
  | nil => rfl
  | cons a l ih => simp [cumsumFrom, ih]

/-- The positions at the end of the groups of equal scores. -/
def groupEnds (ss : List K) : List Nat := whereNonzero (diffK ss) ++ [ss.length - 1]

theorem diffK_length (l : List K) : (diffK l).length = l.length - 1 := by
  unfold diffK; rw [List.length_zipWith, List.length_tail]; omega

theorem diffK_get (l : List K) (i : Nat) (h : i + 1 < l.length) :
    (diffK l).getD i 0 = l[i + 1] - l[i] := by
  unfold diffK
  have hl : i < (List.zipWith (fun (a b : K) => b - a) l l.tail).length := by
    rw [List.length_zipWith, List.length_tail]; omega
  rw [List.getD_eq_getElem?_getD, List.getElem?_eq_getElem hl, Option.getD_some, List.getElem_zipWith,
    List.getElem_tail]

theorem mem_groupEnds {ss : List K} (hne : ss ≠ []) (i : Nat) :
    i ∈ groupEnds ss ↔ (∃ h : i + 1 < ss.length, ss[i + 1] ≠ ss[i]) ∨ i + 1 = ss.length := by
  have hpos := List.length_pos_iff.2 hne
  unfold groupEnds whereNonzero
  rw [List.mem_append, List.mem_singleton, List.mem_filter, List.mem_range, diffK_length]
  refine or_congr ?_ (by omega)
  constructor
  · rintro ⟨h1, h2⟩
    refine ⟨by omega, ?_⟩
    rw [decide_eq_true_eq, diffK_get ss i (by omega), sub_ne_zero] at h2
    exact h2
  · rintro ⟨h1, h2⟩
    refine ⟨by omega, ?_⟩
    rw [decide_eq_true_eq, diffK_get ss i h1, sub_ne_zero]
    exact h2

theorem groupEnds_lt {ss : List K} (hne : ss ≠ []) : ∀ i ∈ groupEnds ss, i < ss.length := by
  intro i hi
  rcases (mem_groupEnds hne i).1 hi with ⟨h, -⟩ | h <;> omega

theorem groupEnds_sorted (ss : List K) : (groupEnds ss).Pairwise (· < ·) := by
  unfold groupEnds whereNonzero
  rw [List.pairwise_append]
  refine ⟨List.Pairwise.filter _ List.pairwise_lt_range, by simp, ?_⟩
  intro i hi j hj
  rw [List.mem_singleton] at hj
  rw [List.mem_filter, List.mem_range, diffK_length] at hi
  omega

/-- The distinct scores in decreasing order. -/
def groupScores (ss : List K) : List K := reorder (groupEnds ss) ss

theorem reorder_eq_map {α : Type} {σ : List Nat} {l : List α} (d : α) (h : ∀ i ∈ σ, i < l.length) :
    reorder σ l = σ.map fun i => l.getD i d := by
  unfold reorder
  rw [← List.filterMap_eq_map]
  refine List.filterMap_congr fun i hi => ?_
  have := h i hi
  simp [List.getD_eq_getElem?_getD, List.getElem?_eq_getElem this]

theorem groupScores_sorted {ss : List K} (hne : ss ≠ []) (hs : ss.Pairwise (· ≥ ·)) :
    (groupScores ss).Pairwise (· > ·) := by
  unfold groupScores
  rw [reorder_eq_map 0 (groupEnds_lt hne), List.pairwise_map]
  have h1 := groupEnds_sorted ss
  refine List.Pairwise.imp_of_mem ?_ h1
  intro i j hi hj hij
  have hj' := groupEnds_lt hne j hj
  have hi1 : i + 1 < ss.length := by omega
  rcases (mem_groupEnds hne i).1 hi with ⟨h2, h3⟩ | h2
  · rw [List.getD_eq_getElem?_getD, List.getD_eq_getElem?_getD, List.getElem?_eq_getElem hj',
      List.getElem?_eq_getElem (by omega), Option.getD_some, Option.getD_some]
    have h4 : ss[i + 1] < ss[i] :=
      lt_of_le_of_ne (List.pairwise_iff_getElem.1 hs i (i + 1) (by omega) h2 (by omega)) h3
    have h5 : ss[j] ≤ ss[i + 1] := by
      rcases Nat.lt_or_ge (i + 1) j with h | h
      · exact List.pairwise_iff_getElem.1 hs _ _ h2 hj' h
      · have : i + 1 = j := by omega
        subst this; exact le_rfl
    exact lt_of_le_of_lt h5 h4
  · omega

theorem groupScores_mem {ss : List K} (hne : ss ≠ []) (v : K) :
    v ∈ groupScores ss ↔ v ∈ ss := by
  unfold groupScores reorder
  rw [List.mem_filterMap]
  constructor
  · rintro ⟨i, -, h⟩; exact List.mem_of_getElem? h
  · intro hv
    obtain ⟨k, hk, rfl⟩ := List.getElem_of_mem hv
    -- the last position with the same score
    have key : ∀ m k : Nat, ∀ hk : k < ss.length, ss.length - k = m →
        ∃ i ∈ groupEnds ss, ss[i]? = some ss[k] := by
      intro m
      induction m with
      | zero => intro k hk h; omega
      | succ m ih =>
        intro k hk h
        by_cases hkl : k + 1 < ss.length
        · by_cases he : ss[k + 1] = ss[k]
          · obtain ⟨i, h1, h2⟩ := ih (k + 1) hkl (by omega)
            exact ⟨i, h1, by rw [h2, he]⟩
          · exact ⟨k, (mem_groupEnds hne k).2 (Or.inl ⟨hkl, he⟩), List.getElem?_eq_getElem hk⟩
        · exact ⟨k, (mem_groupEnds hne k).2 (Or.inr (by omega)), List.getElem?_eq_getElem hk⟩
    exact key _ k hk rfl

/-- The cumulative weight up to the end of a group is the weight of the samples with at least that score. -/
theorem prefix_wsum {T : List (Sample K)} (hs : (T.map fun a => a.score).Pairwise (· ≥ ·)) {i : Nat}
    (hi : i ∈ groupEnds (T.map fun a => a.score)) (hne : T ≠ []) {θ : K}
    (hθ : (T.map fun a => a.score)[i]? = some θ) (p : Sample K → Bool) :
    wsum (T.take (i + 1)) p = wsum T fun s => p s && decide (Flt.fin θ ≤ .fin s.score) := by
  conv_rhs => rw [← List.take_append_drop (i + 1) T]
  rw [wsum_append]
  obtain ⟨hil, hie⟩ := List.getElem?_eq_some_iff.1 hθ
  rw [List.length_map] at hil
  have e1 : wsum (T.take (i + 1)) p =
      wsum (T.take (i + 1)) fun s => p s && decide (Flt.fin θ ≤ .fin s.score) := by
    refine wsum_congr fun s hs' => ?_
    obtain ⟨k, hk, rfl⟩ := List.getElem_of_mem hs'
    have hk' : k < i + 1 := by
      rw [List.length_take] at hk; omega
    have : θ ≤ (T.take (i + 1))[k].score := by
      rw [List.getElem_take, ← hie]
      rcases Nat.lt_or_ge k i with h | h
      · have := List.pairwise_iff_getElem.1 hs k i (by simp; omega) (by simpa using hil) h
        simpa using this
      · have : k = i := by omega
        subst this; simp
    rw [decide_eq_true (Flt.fin_le_fin.2 this), Bool.and_true]
  have e2 : wsum (T.drop (i + 1)) (fun s => p s && decide (Flt.fin θ ≤ .fin s.score)) = 0 := by
    refine wsum_zero fun s hs' => ?_
    obtain ⟨k, hk, rfl⟩ := List.getElem_of_mem hs'
    rw [List.length_drop] at hk
    rw [List.getElem_drop]
    have hlt : T[i + 1 + k].score < θ := by
      rcases (mem_groupEnds (by simpa using hne) i).1 hi with ⟨h2, h3⟩ | h2
      · have h4 : (T.map fun a => a.score)[i + 1] < (T.map fun a => a.score)[i]'(by simpa using hil) :=
          lt_of_le_of_ne (List.pairwise_iff_getElem.1 hs i (i + 1) (by simpa using hil) h2 (by omega)) h3
        rw [hie] at h4
        refine lt_of_le_of_lt ?_ h4
        rcases Nat.eq_zero_or_pos k with h | h
        · subst h; simp
        · have := List.pairwise_iff_getElem.1 hs (i + 1) (i + 1 + k) h2 (by simp; omega) (by omega)
          simpa using this
      · rw [List.length_map] at h2; omega
    rw [decide_eq_false (by rw [Flt.fin_le_fin]; exact not_le.2 hlt), Bool.and_false]
  rw [e1, e2, add_zero]

theorem take_map_sum {T : List (Sample K)} (p : Sample K → Bool) (n : Nat) :
    ((T.map fun s => if p s then s.weight else 0).take n).sum = wsum (T.take n) p := by
  rw [← List.map_take]; rfl

/-- Cumulative sums read off at the ends of the groups. -/
theorem takeIdx_cumsum {T : List (Sample K)} (hs : (T.map fun a => a.score).Pairwise (· ≥ ·)) (hne : T ≠ [])
    (p : Sample K → Bool) :
    takeIdx (groupEnds (T.map fun a => a.score)) (cumsumFrom 0 (T.map fun s => if p s then s.weight else 0)) =
      .ok ((groupScores (T.map fun a => a.score)).map fun θ =>
        wsum T fun s => p s && decide (Flt.fin θ ≤ .fin s.score)) := by
  have hne' : (T.map fun a => a.score) ≠ [] := by simpa using hne
  have hlt := groupEnds_lt hne'
  rw [takeIdx_reorder (by
    intro i hi
    rw [cumsumFrom_length, List.length_map]
    simpa using hlt i hi)]
  congr 1
  unfold groupScores reorder
  rw [List.map_filterMap]
  refine List.filterMap_congr fun i hi => ?_
  have hil := hlt i hi
  have hg := List.getElem?_eq_getElem hil
  rw [cumsumFrom_get _ _ _ (by simpa using hil), zero_add, take_map_sum, hg, Option.map_some,
    prefix_wsum hs hi hne hg]

/-- The same for a weight row of ones: the counts of lines 103-104. -/
theorem count_prefix_length (T : List (Sample K)) (hw : ∀ s ∈ T, s.weight = 1) (n : Nat) (hn : n ≤ T.length) :
    wsum (T.take n) (fun _ => true) = (n : K) := by
  induction T generalizing n with
  | nil => simp at hn; subst hn; simp [wsum]
  | cons a T ih =>
    cases n with
    | zero => simp [wsum]
    | succ n =>
      rw [List.take_succ_cons, wsum_cons, ih (fun s hs => hw s (by simp [hs])) n (by simpa using hn),
        hw a (by simp)]
      push_cast
      simp [add_comm]

theorem groupScores_getLastD {ss : List K} (hne : ss ≠ []) (g : K → K) :
    ∃ θ, ss[ss.length - 1]? = some θ ∧ ((groupScores ss).map g).getLastD 0 = g θ ∧
      ss.length - 1 ∈ groupEnds ss := by
  have hpos := List.length_pos_iff.2 hne
  have h1 : ss.length - 1 < ss.length := by omega
  refine ⟨ss[ss.length - 1], List.getElem?_eq_getElem h1, ?_, by simp [groupEnds]⟩
  unfold groupScores groupEnds reorder
  rw [List.filterMap_append, List.filterMap_cons_some (List.getElem?_eq_getElem h1), List.filterMap_nil,
    List.map_append, List.map_singleton, List.getLastD_concat]

theorem last_total {T : List (Sample K)} (hs : (T.map fun a => a.score).Pairwise (· ≥ ·)) (hne : T ≠ [])
    (p : Sample K → Bool) :
    ((groupScores (T.map fun a => a.score)).map fun θ =>
      wsum T fun s => p s && decide (Flt.fin θ ≤ .fin s.score)).getLastD 0 = wsum T p := by
  obtain ⟨θ, h1, h2, h3⟩ := groupScores_getLastD (ss := T.map fun a => a.score) (by simpa using hne)
    (fun θ => wsum T fun s => p s && decide (Flt.fin θ ≤ .fin s.score))
  rw [h2, ← prefix_wsum hs h3 hne h1]
  congr 1
  have := List.length_pos_iff.2 hne
  rw [List.take_of_length_le]
  rw [List.length_map]; omega

theorem mask_sum (T : List (Sample K)) (p : Sample K → Bool) :
    (mask (T.map p) (T.map fun a => a.weight)).sum = wsum T p := by
  induction T with
  | nil => rfl
  | cons a T ih =>
    rw [List.map_cons, List.map_cons, wsum_cons]
    cases h : p a
    · simp [mask, ih]
    · simp [mask, ih]

theorem countP_wsum {T : List (Sample K)} (hw : ∀ s ∈ T, s.weight = 1) (q : Bool → Bool) :
    (((T.map fun a => a.label).countP q : Nat) : K) = wsum T fun s => q s.label := by
  induction T with
  | nil => simp [wsum]
  | cons a T ih =>
    rw [List.map_cons, List.countP_cons, wsum_cons, hw a (by simp), ← ih fun s hs => hw s (by simp [hs])]
    push_cast
    rw [add_comm]

theorem posAbove_eq (S : List (Sample K)) (θ : K) :
    posAbove S (.fin θ) = wsum S fun s => s.label && decide (Flt.fin θ ≤ .fin s.score) := rfl

/-- Lines 103-105 compute the counts. -/
theorem countsPlain_ok {T : List (Sample K)} (hs : (T.map fun a => a.score).Pairwise (· ≥ ·)) (hne : T ≠ [])
    (hw : ∀ s ∈ T, s.weight = 1) :
    countsPlain (T.map fun a => a.label) (groupEnds (T.map fun a => a.score)) =
      .ok ((groupScores (T.map fun a => a.score)).map fun θ => negAbove T (.fin θ),
        (groupScores (T.map fun a => a.score)).map fun θ => posAbove T (.fin θ)) := by
  have hne' : (T.map fun a => a.score) ≠ [] := by simpa using hne
  have hlt := groupEnds_lt hne'
  have e0 : ((T.map fun a => a.label).map boolNum : List K) = T.map fun s => if s.label then s.weight else 0 := by
    rw [List.map_map]
    refine List.map_congr_left fun s hs => ?_
    rw [hw s hs]; rfl
  have etps := takeIdx_cumsum hs hne (fun s => s.label)
  unfold countsPlain
  rw [e0, etps, ok_bind]
  have efps : List.zipWith (fun (i : Nat) (t : K) => 1 + (i : K) - t) (groupEnds (T.map fun a => a.score))
      ((groupScores (T.map fun a => a.score)).map fun θ =>
        wsum T fun s => s.label && decide (Flt.fin θ ≤ .fin s.score)) =
      (groupScores (T.map fun a => a.score)).map fun θ => negAbove T (.fin θ) := by
    unfold groupScores
    rw [reorder_eq_map 0 hlt, List.map_map, List.map_map]
    rw [List.zipWith_map_right, List.zipWith_self]
    refine List.map_congr_left fun i hi => ?_
    have hil := hlt i hi
    have hg : (T.map fun a => a.score)[i]? = some ((T.map fun a => a.score).getD i 0) := by
      rw [List.getD_eq_getElem?_getD, List.getElem?_eq_getElem hil, Option.getD_some]
    have h1 := prefix_wsum hs hi hne hg (fun _ => true)
    rw [count_prefix_length T hw (i + 1) (by simpa using hil)] at h1
    have h2 := wsum_split T (fun s => true && decide (Flt.fin ((T.map fun a => a.score).getD i 0) ≤ .fin s.score))
      (fun s => s.label)
    rw [← h1] at h2
    simp only [Function.comp]
    unfold negAbove
    have e1 : wsum T (fun s => s.label && decide (Flt.fin ((T.map fun a => a.score).getD i 0) ≤ .fin s.score)) =
        wsum T (fun s => true && decide (Flt.fin ((T.map fun a => a.score).getD i 0) ≤ .fin s.score) && s.label) :=
      wsum_congr fun s _ => by rw [Bool.true_and, Bool.and_comm]
    have e2 : wsum T (fun s => !s.label && decide (Flt.fin ((T.map fun a => a.score).getD i 0) ≤ .fin s.score)) =
        wsum T (fun s => true && decide (Flt.fin ((T.map fun a => a.score).getD i 0) ≤ .fin s.score) && !s.label) :=
      wsum_congr fun s _ => by rw [Bool.true_and, Bool.and_comm]
    rw [e1, e2]
    push_cast at h2
    linear_combination h2
  simp only [efps, pyAssert_bind]
  have l1 : ((groupScores (T.map fun a => a.score)).map fun θ => negAbove T (.fin θ)).getLastD 0 =
      (((T.map fun a => a.label).countP (fun b => !b) : Nat) : K) := by
    rw [countP_wsum hw]
    exact last_total hs hne fun s => !s.label
  have l2 : ((groupScores (T.map fun a => a.score)).map fun θ =>
      wsum T fun s => s.label && decide (Flt.fin θ ≤ .fin s.score)).getLastD 0 =
      (((T.map fun a => a.label).countP (fun b => b) : Nat) : K) := by
    rw [countP_wsum hw]
    exact last_total hs hne fun s => s.label
  rw [l1, l2]
  simp only [decide_true, Bool.and_self, if_true]
  rfl

theorem allclose_refl (a : K) : allclose a a = true := by
  unfold allclose isclose
  simp only [sub_self, abs_zero, decide_eq_true_eq]
  positivity

/-- Lines 115-119 compute the counts for each row of weights. -/
theorem countsWeighted_ok {T : List (Sample K)} (hs : (T.map fun a => a.score).Pairwise (· ≥ ·)) (hne : T ≠ [])
    {idx : List Nat} {w : List K} (hw : takeIdx idx w = .ok (T.map fun a => a.weight)) :
    countsWeighted (T.map fun a => a.label) idx (groupEnds (T.map fun a => a.score)) w =
      .ok ((groupScores (T.map fun a => a.score)).map fun θ => negAbove T (.fin θ),
        (groupScores (T.map fun a => a.score)).map fun θ => posAbove T (.fin θ)) := by
  have e0 : List.zipWith (fun (b : Bool) (v : K) => boolNum b * v) (T.map fun a => a.label)
      (T.map fun a => a.weight) = T.map fun s => if s.label then s.weight else 0 := by
    rw [List.zipWith_map, List.zipWith_self]
    refine List.map_congr_left fun s _ => ?_
    cases s.label <;> simp [boolNum]
  have e1 : (T.map fun a => a.weight) = T.map fun s => if (fun _ => true) s then s.weight else 0 := by
    simp
  have etps := takeIdx_cumsum hs hne (fun s => s.label)
  have ecw := takeIdx_cumsum hs hne (fun _ => true)
  rw [← e1] at ecw
  unfold countsWeighted
  rw [hw, ok_bind, e0, etps, ok_bind, ecw, ok_bind]
  have efps : List.zipWith (fun (c t : K) => c - t)
      ((groupScores (T.map fun a => a.score)).map fun θ =>
        wsum T fun s => true && decide (Flt.fin θ ≤ .fin s.score))
      ((groupScores (T.map fun a => a.score)).map fun θ =>
        wsum T fun s => s.label && decide (Flt.fin θ ≤ .fin s.score)) =
      (groupScores (T.map fun a => a.score)).map fun θ => negAbove T (.fin θ) := by
    rw [List.zipWith_map, List.zipWith_self]
    refine List.map_congr_left fun θ _ => ?_
    have h2 := wsum_split T (fun s => true && decide (Flt.fin θ ≤ .fin s.score)) (fun s => s.label)
    unfold negAbove
    have e1 : wsum T (fun s => s.label && decide (Flt.fin θ ≤ .fin s.score)) =
        wsum T (fun s => true && decide (Flt.fin θ ≤ .fin s.score) && s.label) :=
      wsum_congr fun s _ => by rw [Bool.true_and, Bool.and_comm]
    have e2 : wsum T (fun s => !s.label && decide (Flt.fin θ ≤ .fin s.score)) =
        wsum T (fun s => true && decide (Flt.fin θ ≤ .fin s.score) && !s.label) :=
      wsum_congr fun s _ => by rw [Bool.true_and, Bool.and_comm]
    rw [e1, e2, h2]
    ring
  simp only [efps, pyAssert_bind]
  have l1 : ((groupScores (T.map fun a => a.score)).map fun θ => negAbove T (.fin θ)).getLastD 0 =
      (mask ((T.map fun a => a.label).map fun b => !b) (T.map fun a => a.weight)).sum := by
    rw [List.map_map]
    exact (last_total hs hne fun s => !s.label).trans (mask_sum T _).symm
  have l2 : ((groupScores (T.map fun a => a.score)).map fun θ =>
      wsum T fun s => s.label && decide (Flt.fin θ ≤ .fin s.score)).getLastD 0 =
      (mask (T.map fun a => a.label) (T.map fun a => a.weight)).sum :=
    (last_total hs hne fun s => s.label).trans (mask_sum T _).symm
  rw [l1, l2, allclose_refl, allclose_refl]
  rfl

/-! ## The counts as functions of the threshold -/

theorem posAbove_pinf (S : List (Sample K)) : posAbove S .pinf = 0 := by
  unfold posAbove; exact wsum_zero fun s _ => by simp

theorem negAbove_pinf (S : List (Sample K)) : negAbove S .pinf = 0 := by
  unfold negAbove; exact wsum_zero fun s _ => by simp

theorem posAbove_mono {S : List (Sample K)} (hw : ∀ s ∈ S, 0 < s.weight) {θ θ' : Flt K} (h : θ' ≤ θ) :
    posAbove S θ ≤ posAbove S θ' := by
  refine wsum_mono hw fun s _ hs => ?_
  rw [Bool.and_eq_true, decide_eq_true_eq] at hs ⊢
  exact ⟨hs.1, h.trans hs.2⟩

theorem negAbove_mono {S : List (Sample K)} (hw : ∀ s ∈ S, 0 < s.weight) {θ θ' : Flt K} (h : θ' ≤ θ) :
    negAbove S θ ≤ negAbove S θ' := by
  refine wsum_mono hw fun s _ hs => ?_
  rw [Bool.and_eq_true, decide_eq_true_eq] at hs ⊢
  exact ⟨hs.1, h.trans hs.2⟩

theorem fpCount_pinf (S : List (Sample K)) : fpCount S .pinf = 0 := by
  unfold fpCount; rw [posAbove_pinf, negAbove_pinf, mul_zero, ite_self]

theorem tpCount_pinf (S : List (Sample K)) : tpCount S .pinf = 0 := by
  unfold tpCount; rw [posAbove_pinf, negAbove_pinf, mul_zero, ite_self]

theorem fpCount_mono {S : List (Sample K)} (hw : ∀ s ∈ S, 0 < s.weight) {θ θ' : Flt K} (h : θ' ≤ θ) :
    fpCount S θ ≤ fpCount S θ' := by
  unfold fpCount
  split
  · exact mul_le_mul_of_nonneg_left (posAbove_mono hw h) (by positivity)
  · exact negAbove_mono hw h

theorem tpCount_mono {S : List (Sample K)} (hw : ∀ s ∈ S, 0 < s.weight) {θ θ' : Flt K} (h : θ' ≤ θ) :
    tpCount S θ ≤ tpCount S θ' := by
  unfold tpCount
  split
  · exact mul_le_mul_of_nonneg_left (negAbove_mono hw h) (by positivity)
  · exact posAbove_mono hw h

theorem total_pos {S : List (Sample K)} (hw : ∀ s ∈ S, 0 < s.weight) (hne : S ≠ []) :
    0 < posTotal S ∨ 0 < negTotal S := by
  obtain ⟨a, ha⟩ := List.exists_mem_of_ne_nil S hne
  cases h : a.label
  · exact Or.inr (wsum_pos hw ha (by simp [h]))
  · exact Or.inl (wsum_pos hw ha h)

theorem fpTotal_pos {S : List (Sample K)} (hw : ∀ s ∈ S, 0 < s.weight) (hne : S ≠ []) : 0 < fpTotal S := by
  unfold fpTotal
  split
  · rename_i h
    rcases total_pos hw hne with h' | h'
    · positivity
    · exact absurd h h'.ne'
  · rename_i h
    exact lt_of_le_of_ne (wsum_nonneg hw _) (Ne.symm h)

theorem tpTotal_pos {S : List (Sample K)} (hw : ∀ s ∈ S, 0 < s.weight) (hne : S ≠ []) : 0 < tpTotal S := by
  unfold tpTotal
  split
  · rename_i h
    rcases total_pos hw hne with h' | h'
    · exact absurd h h'.ne'
    · positivity
  · rename_i h
    exact lt_of_le_of_ne (wsum_nonneg hw _) (Ne.symm h)

/-- Below every score the counts are the totals. -/
theorem above_total {S : List (Sample K)} {θ : Flt K} (h : ∀ s ∈ S, θ ≤ .fin s.score) :
    posAbove S θ = posTotal S ∧ negAbove S θ = negTotal S := by
  constructor
  · exact wsum_congr fun s hs => by rw [decide_eq_true (h s hs), Bool.and_true]
  · exact wsum_congr fun s hs => by rw [decide_eq_true (h s hs), Bool.and_true]

theorem counts_total {S : List (Sample K)} {θ : Flt K} (h : ∀ s ∈ S, θ ≤ .fin s.score) :
    fpCount S θ = fpTotal S ∧ tpCount S θ = tpTotal S := by
  obtain ⟨h1, h2⟩ := above_total h
  unfold fpCount tpCount fpTotal tpTotal
  rw [h1, h2]; exact ⟨rfl, rfl⟩

theorem cummax_id {l : List K} (h : l.Pairwise (· ≤ ·)) : cummax l = l := by
  have key : ∀ (l : List K) (a : K), (a :: l).Pairwise (· ≤ ·) → cummaxFrom a l = l := by
    intro l
    induction l with
    | nil => intro a _; rfl
    | cons b l ih =>
      intro a h
      rw [List.pairwise_cons] at h
      rw [cummaxFrom, max_eq_right (h.1 b (by simp)), ih b h.2]
  cases l with
  | nil => rfl
  | cons a l => rw [cummax, key l a h]

theorem diffK_nonneg {l : List K} (h : l.Pairwise (· ≤ ·)) : ((diffK l).all fun d => decide (0 ≤ d)) = true := by
  rw [List.all_eq_true]
  intro d hd
  obtain ⟨i, hi, rfl⟩ := List.getElem_of_mem hd
  rw [diffK_length] at hi
  have := diffK_get l i (by omega)
  rw [List.getD_eq_getElem?_getD, List.getElem?_eq_getElem (by rw [diffK_length]; exact hi), Option.getD_some] at this
  rw [this, decide_eq_true_eq, sub_nonneg]
  exact List.pairwise_iff_getElem.1 h i (i + 1) (by omega) (by omega) (by omega)

/-- The thresholds of the curve: `+inf` and the distinct scores, decreasing. -/
def thresholdsOf (s : List K) : List (Flt K) := .pinf :: finVec (groupScores (reorder (descIdx s) s))

theorem reorder_ne_nil {s : List K} (hne : s ≠ []) : reorder (descIdx s) s ≠ [] := by
  intro h
  have := (reorder_perm (descIdx_perm s)).length_eq
  rw [h] at this
  exact hne (List.eq_nil_of_length_eq_zero this.symm)

theorem thresholdsOf_spec {s : List K} (hne : s ≠ []) : IsThresholds s (thresholdsOf s) := by
  refine ⟨_, rfl, groupScores_sorted (reorder_ne_nil hne) (descIdx_sorted s), fun v => ?_⟩
  rw [groupScores_mem (reorder_ne_nil hne), (reorder_perm (descIdx_perm s)).mem_iff]

theorem isThresholds_sorted {s : List K} {thr : List (Flt K)} (h : IsThresholds s thr) :
    thr.Pairwise (· > ·) := by
  obtain ⟨ds, rfl, h1, -⟩ := h
  rw [List.pairwise_cons]
  constructor
  · intro v hv
    obtain ⟨x, -, rfl⟩ := List.mem_map.1 hv
    exact not_le.1 (Flt.not_pinf_le_fin x)
  · unfold finVec
    rw [List.pairwise_map]
    exact h1.imp fun hab => Flt.fin_lt_fin.2 hab

/-- The threshold list is determined by the set of scores. -/
theorem isThresholds_unique {s s' : List K} {thr thr' : List (Flt K)} (h : IsThresholds s thr)
    (h' : IsThresholds s' thr') (hm : ∀ v, v ∈ s ↔ v ∈ s') : thr = thr' := by
  obtain ⟨ds, rfl, h1, h2⟩ := h
  obtain ⟨ds', rfl, h1', h2'⟩ := h'
  have : ds = ds' := by
    have hp : ds.Perm ds' := by
      rw [List.perm_ext_iff_of_nodup (h1.imp fun h => ne_of_gt h) (h1'.imp fun h => ne_of_gt h)]
      intro v
      rw [h2, h2', hm]
    exact hp.eq_of_pairwise (le := (· > ·)) (fun a b _ _ h1 h2 => absurd h1 (not_lt.2 (le_of_lt h2))) h1 h1'
  rw [this]

theorem isThresholds_last {s : List K} {thr : List (Flt K)} (hne : s ≠ []) (h : IsThresholds s thr) :
    ∃ pre θ, thr = pre ++ [Flt.fin θ] ∧ pre ≠ [] ∧ ∀ v ∈ s, θ ≤ v := by
  obtain ⟨ds, rfl, h1, h2⟩ := h
  have hds : ds ≠ [] := by
    obtain ⟨v, hv⟩ := List.exists_mem_of_ne_nil s hne
    intro e; rw [e] at h2; exact absurd ((h2 v).2 hv) (by simp)
  refine ⟨.pinf :: finVec ds.dropLast, ds.getLast hds, ?_, by simp, ?_⟩
  · conv_lhs => rw [← List.dropLast_append_getLast hds]
    simp [finVec]
  · intro v hv
    have hv' := (h2 v).2 hv
    rw [← List.dropLast_append_getLast hds, List.mem_append, List.mem_singleton] at hv'
    rcases hv' with hv' | rfl
    · rw [← List.dropLast_append_getLast hds, List.pairwise_append] at h1
      exact (h1.2.2 v hv' _ (by simp)).le
    · exact le_rfl

theorem mem_samples {y : List Bool} {s w : List K} (h1 : s.length = y.length) (h2 : w.length = y.length)
    {a : Sample K} (ha : a ∈ samples y s w) : a.score ∈ s ∧ a.weight ∈ w ∧ a.label ∈ y := by
  refine ⟨?_, ?_, ?_⟩
  · rw [← samples_scores (y := y) (w := w) h1 h2]; exact List.mem_map_of_mem ha
  · rw [← samples_weights (y := y) (s := s) h1 h2]; exact List.mem_map_of_mem ha
  · rw [← samples_labels (s := s) (w := w) h1 h2]; exact List.mem_map_of_mem ha

theorem getLastD_map_last {s : List K} {thr : List (Flt K)} (hne : s ≠ []) (h : IsThresholds s thr)
    {S : List (Sample K)} (hS : ∀ a ∈ S, a.score ∈ s) :
    (thr.map (negAbove S)).getLastD 0 = negTotal S ∧ (thr.map (posAbove S)).getLastD 0 = posTotal S ∧
    (thr.map (fpCount S)).getLastD 0 = fpTotal S ∧ (thr.map (tpCount S)).getLastD 0 = tpTotal S := by
  obtain ⟨pre, θ, rfl, -, hθ⟩ := isThresholds_last hne h
  have hall : ∀ a ∈ S, Flt.fin θ ≤ .fin a.score := fun a ha => Flt.fin_le_fin.2 (hθ _ (hS a ha))
  obtain ⟨h1, h2⟩ := above_total hall
  obtain ⟨h3, h4⟩ := counts_total hall
  simp only [List.map_append, List.map_singleton, List.getLastD_concat, h1, h2, h3, h4, and_self]

theorem map_pairwise_mono {s : List K} {thr : List (Flt K)} (h : IsThresholds s thr) {g : Flt K → K}
    (hg : ∀ θ θ', θ' ≤ θ → g θ ≤ g θ') : (thr.map g).Pairwise (· ≤ ·) := by
  rw [List.pairwise_map]
  exact (isThresholds_sorted h).imp fun hab => hg _ _ (le_of_lt hab)

/-- For valid input the count curves are the threshold counts. -/
theorem clf_ok {y : List Bool} {s : List K} {W : Option (List (List K))} (hin : CurveInput y s W) :
    binaryClfCurve y (finVec s) (W.map (finMat y.length)) =
      .ok ((weightRows y.length W).map (fun w => (thresholdsOf s).map (fpCount (samples y s w))),
        (weightRows y.length W).map (fun w => (thresholdsOf s).map (tpCount (samples y s w))),
        thresholdsOf s) := by
  obtain ⟨hl, hne, hrows, hw⟩ := hin
  have hsne : s ≠ [] := by
    intro e; rw [e] at hl; exact hne (List.eq_nil_of_length_eq_zero hl.symm)
  have hypos := List.length_pos_iff.2 hne
  have hperm := descIdx_perm s
  have hidx : ∀ i ∈ descIdx s, i < s.length := fun i hi => List.mem_range.1 (hperm.mem_iff.1 hi)
  have hidx' : ∀ i ∈ descIdx s, i < y.length := fun i hi => hl ▸ hidx i hi
  have hss : takeIdx (descIdx s) s = .ok (reorder (descIdx s) s) := takeIdx_reorder hidx
  have hy : takeIdx (descIdx s) y = .ok (reorder (descIdx s) y) := takeIdx_reorder hidx'
  have hfin : (finVec s).filterMap finPart = s := by
    unfold finVec
    rw [List.filterMap_map]
    exact List.filterMap_some
  have hallfin : ((finVec s).all fun v => v.isFinite) = true := by
    rw [List.all_eq_true]
    intro v hv
    obtain ⟨x, -, rfl⟩ := List.mem_map.1 hv
    rfl
  have hlen : (finVec s).length = y.length := by rw [← hl]; simp [finVec]
  have hslen : (reorder (descIdx s) s).length = y.length := by rw [(reorder_perm hperm).length_eq, hl]
  have hylen : (reorder (descIdx s) y).length = y.length := by
    rw [(reorder_perm (l := y) (hl ▸ hperm : IsPerm _ _)).length_eq]
  -- the samples in the order of decreasing score
  have hT : ∀ w ∈ weightRows y.length W, ∃ T : List (Sample K), T.Perm (samples y s w) ∧
      (T.map fun a => a.score) = reorder (descIdx s) s ∧ (T.map fun a => a.label) = reorder (descIdx s) y ∧
      (T.map fun a => a.weight) = reorder (descIdx s) w := by
    intro w hwm
    have hwl := (hw w hwm).1
    refine ⟨reorder (descIdx s) (samples y s w), reorder_perm ?_, ?_, ?_, ?_⟩
    · unfold IsPerm
      rw [samples_length hl hwl, ← hl]; exact hperm
    · rw [← reorder_map, samples_scores hl hwl]
    · rw [← reorder_map, samples_labels hl hwl]
    · rw [← reorder_map, samples_weights hl hwl]
  have hends : whereNonzero (diffK (reorder (descIdx s) s)) ++ [y.length - 1] =
      groupEnds (reorder (descIdx s) s) := by rw [groupEnds, hslen]
  have hsorted := descIdx_sorted s
  have hcounts : countsOf (reorder (descIdx s) y) (descIdx s) (groupEnds (reorder (descIdx s) s))
      (W.map (finMat y.length)) =
      .ok ((weightRows y.length W).map fun w =>
        ((groupScores (reorder (descIdx s) s)).map fun θ => negAbove (samples y s w) (.fin θ),
          (groupScores (reorder (descIdx s) s)).map fun θ => posAbove (samples y s w) (.fin θ))) := by
    cases W with
    | none =>
      obtain ⟨T, h1, h2, h3, h4⟩ := hT (List.replicate y.length 1) (by simp [weightRows])
      have hTne : T ≠ [] := by
        rintro rfl
        exact reorder_ne_nil hsne h2.symm
      have := countsPlain_ok (T := T) (h2 ▸ hsorted) hTne (by
        intro a ha
        have := (mem_samples hl (by simp) (h1.mem_iff.1 ha)).2.1
        exact (List.mem_replicate.1 this).2)
      rw [h2, h3] at this
      simp only [Option.map_none, countsOf, this, ok_bind]
      simp only [negAbove, posAbove, wsum_perm h1]
      rfl
    | some W =>
      simp only [Option.map_some, countsOf]
      have a1 : decide ((finMat y.length W).ncols = (reorder (descIdx s) y).length) = true := by
        rw [decide_eq_true_eq, hylen]; rfl
      have a2 : decide (1 ≤ (finMat y.length W).rows.length) = true := by
        have : W ≠ [] := hrows
        have := List.length_pos_iff.2 this
        simp [finMat]; omega
      have a3 : ((finMat y.length W).rows.all fun r => r.all fun v => v.isFinite) = true := by
        rw [List.all_eq_true]
        intro r hr
        obtain ⟨w, -, rfl⟩ := List.mem_map.1 hr
        rw [List.all_eq_true]
        intro v hv
        obtain ⟨x, -, rfl⟩ := List.mem_map.1 hv
        rfl
      have a4 : ((finMat y.length W).rows.all fun r => r.all fun v => (Flt.fin 0).lt v) = true := by
        rw [List.all_eq_true]
        intro r hr
        obtain ⟨w, hwm, rfl⟩ := List.mem_map.1 hr
        rw [List.all_eq_true]
        intro v hv
        obtain ⟨x, hx, rfl⟩ := List.mem_map.1 hv
        rw [Flt.lt_iff, Flt.fin_lt_fin]
        exact ⟨by simp, (hw w hwm).2 x hx⟩
      simp only [pyAssert_bind, a1, a2, a3, a4, if_true]
      show (W.map finVec).mapM _ = Except.ok (W.map _)
      rw [List.mapM_map]
      refine mapM_eq_ok_map _ _ _ fun w hwm => ?_
      obtain ⟨T, h1, h2, h3, h4⟩ := hT w hwm
      have hTne : T ≠ [] := by
        rintro rfl
        exact reorder_ne_nil hsne h2.symm
      have hfinw : (finVec w).filterMap finPart = w := by
        unfold finVec
        rw [List.filterMap_map]
        exact List.filterMap_some
      have := countsWeighted_ok (T := T) (idx := descIdx s) (w := w) (h2 ▸ hsorted) hTne (by
        rw [h4]
        exact takeIdx_reorder fun i hi => by rw [(hw w hwm).1]; exact hidx' i hi)
      rw [h2, h3] at this
      simp only [Function.comp, hfinw, this]
      simp only [negAbove, posAbove, wsum_perm h1]
  have hthr := thresholdsOf_spec hsne
  have hst : takeIdx (groupEnds (reorder (descIdx s) s)) (reorder (descIdx s) s) =
      .ok (groupScores (reorder (descIdx s) s)) :=
    takeIdx_reorder (groupEnds_lt (reorder_ne_nil hsne))
  have hwpos : ∀ w ∈ weightRows y.length W, ∀ a ∈ samples y s w, 0 < a.weight := fun w hwm a ha =>
    (hw w hwm).2 _ (mem_samples hl (hw w hwm).1 ha).2.1
  have hSne : ∀ w ∈ weightRows y.length W, samples y s w ≠ [] := by
    intro w hwm e
    have := samples_length hl (hw w hwm).1
    rw [e] at this
    simp at this; omega
  have hSs : ∀ w ∈ weightRows y.length W, ∀ a ∈ samples y s w, a.score ∈ s := fun w hwm a ha =>
    (mem_samples hl (hw w hwm).1 ha).1
  have hlast : ∀ w ∈ weightRows y.length W, _ := fun w hwm => getLastD_map_last hsne hthr (hSs w hwm)
  have hmono1 : ∀ w ∈ weightRows y.length W, ((thresholdsOf s).map (fpCount (samples y s w))).Pairwise (· ≤ ·) :=
    fun w hwm => map_pairwise_mono hthr fun θ θ' h => fpCount_mono (hwpos w hwm) h
  have hmono2 : ∀ w ∈ weightRows y.length W, ((thresholdsOf s).map (tpCount (samples y s w))).Pairwise (· ≤ ·) :=
    fun w hwm => map_pairwise_mono hthr fun θ θ' h => tpCount_mono (hwpos w hwm) h
  unfold binaryClfCurve
  simp only [pyAssert_bind]
  rw [if_pos (by rw [hlen, hallfin]; simp), if_pos (by rw [decide_eq_true_eq]; omega), hfin]
  rw [show (argsortStable s).reverse = descIdx s from rfl, hss, ok_bind, hy, ok_bind, hends, hcounts, ok_bind, hst,
    ok_bind]
  rw [if_pos (by
    have : groupScores (reorder (descIdx s) s) ≠ [] := by
      intro e
      obtain ⟨v, hv⟩ := List.exists_mem_of_ne_nil _ (reorder_ne_nil hsne)
      have := (groupScores_mem (reorder_ne_nil hsne) v).2 hv
      rw [e] at this; simp at this
    have := List.length_pos_iff.2 this
    simp; omega)]
  have hfps : ((weightRows y.length W).map fun w =>
        ((groupScores (reorder (descIdx s) s)).map fun θ => negAbove (samples y s w) (.fin θ),
          (groupScores (reorder (descIdx s) s)).map fun θ => posAbove (samples y s w) (.fin θ))).map
        (fun c => (0 : K) :: c.1) =
      (weightRows y.length W).map fun w => (thresholdsOf s).map (negAbove (samples y s w)) := by
    rw [List.map_map]
    refine List.map_congr_left fun w _ => ?_
    simp [thresholdsOf, negAbove_pinf, finVec, Function.comp]
  have htps : ((weightRows y.length W).map fun w =>
        ((groupScores (reorder (descIdx s) s)).map fun θ => negAbove (samples y s w) (.fin θ),
          (groupScores (reorder (descIdx s) s)).map fun θ => posAbove (samples y s w) (.fin θ))).map
        (fun c => (0 : K) :: c.2) =
      (weightRows y.length W).map fun w => (thresholdsOf s).map (posAbove (samples y s w)) := by
    rw [List.map_map]
    refine List.map_congr_left fun w _ => ?_
    simp [thresholdsOf, posAbove_pinf, finVec, Function.comp]
  have hpseudo : addPseudoPoints
      ((weightRows y.length W).map fun w => (thresholdsOf s).map (negAbove (samples y s w)))
      ((weightRows y.length W).map fun w => (thresholdsOf s).map (posAbove (samples y s w))) =
      .ok ((weightRows y.length W).map (fun w => (thresholdsOf s).map (fpCount (samples y s w))),
        (weightRows y.length W).map (fun w => (thresholdsOf s).map (tpCount (samples y s w)))) := by
    unfold addPseudoPoints
    simp only [pyAssert_bind]
    rw [if_pos (by
      rw [Bool.and_eq_true, decide_eq_true_eq, List.length_map, List.length_map, List.all_eq_true]
      refine ⟨rfl, ?_⟩
      rw [List.zip_map']
      intro p hp
      obtain ⟨w, -, rfl⟩ := List.mem_map.1 hp
      simp), if_pos (by
      rw [Bool.and_eq_true, decide_eq_true_eq, List.length_map, List.all_eq_true]
      refine ⟨List.length_pos_iff.2 hrows, ?_⟩
      intro r hr
      obtain ⟨w, -, rfl⟩ := List.mem_map.1 hr
      simp [thresholdsOf])]
    rw [List.zipWith_map, List.zipWith_self]
    have hrow : ∀ w ∈ weightRows y.length W,
        pseudoRow ((thresholdsOf s).map (negAbove (samples y s w))) ((thresholdsOf s).map (posAbove (samples y s w))) =
          ((thresholdsOf s).map (fpCount (samples y s w)), (thresholdsOf s).map (tpCount (samples y s w))) := by
      intro w hwm
      obtain ⟨l1, l2, -, -⟩ := hlast w hwm
      have hnb : negTotal (samples y s w) = 0 → posTotal (samples y s w) ≠ 0 := by
        intro h1 h2
        rcases total_pos (hwpos w hwm) (hSne w hwm) with h | h
        · exact h.ne' h2
        · exact h.ne' h1
      unfold pseudoRow
      rw [l1, l2]
      unfold fpCount tpCount epsilon
      by_cases h1 : negTotal (samples y s w) = 0
      · have h2 := hnb h1
        simp only [h1, h2, decide_true, decide_false, if_true, if_false, Bool.false_eq_true, List.map_map]
        rfl
      · by_cases h2 : posTotal (samples y s w) = 0
        · simp only [h1, h2, decide_true, decide_false, if_true, if_false, Bool.false_eq_true, List.map_map]
          rfl
        · simp only [h1, h2, decide_false, if_false, Bool.false_eq_true]
    rw [pure_eq_ok]
    congr 1
    rw [List.map_map, List.map_map, Prod.mk.injEq]
    constructor
    · refine List.map_congr_left fun w hwm => ?_
      rw [Function.comp, hrow w hwm]
    · refine List.map_congr_left fun w hwm => ?_
      rw [Function.comp, hrow w hwm]
  rw [hfps, htps, hpseudo, ok_bind]
  rw [if_pos (by
    rw [Bool.and_eq_true, List.all_eq_true, List.all_eq_true]
    constructor
    · intro r hr
      obtain ⟨w, hwm, rfl⟩ := List.mem_map.1 hr
      obtain ⟨-, -, l3, -⟩ := hlast w hwm
      rw [decide_eq_true_eq, l3]
      exact fpTotal_pos (hwpos w hwm) (hSne w hwm)
    · intro r hr
      obtain ⟨w, hwm, rfl⟩ := List.mem_map.1 hr
      obtain ⟨-, -, -, l4⟩ := hlast w hwm
      rw [decide_eq_true_eq, l4]
      exact tpTotal_pos (hwpos w hwm) (hSne w hwm))]
  have hcm : ((weightRows y.length W).map (fun w => (thresholdsOf s).map (fpCount (samples y s w)))).map cummax =
      (weightRows y.length W).map (fun w => (thresholdsOf s).map (fpCount (samples y s w))) := by
    rw [List.map_map]
    exact List.map_congr_left fun w hwm => cummax_id (hmono1 w hwm)
  simp only [hcm]
  rw [if_pos (by
    rw [Bool.and_eq_true, List.all_eq_true, List.all_eq_true]
    constructor
    · intro r hr
      obtain ⟨w, hwm, rfl⟩ := List.mem_map.1 hr
      exact diffK_nonneg (hmono1 w hwm)
    · intro r hr
      obtain ⟨w, hwm, rfl⟩ := List.mem_map.1 hr
      exact diffK_nonneg (hmono2 w hwm))]
  rfl

end
end Mlp.Lemmas
