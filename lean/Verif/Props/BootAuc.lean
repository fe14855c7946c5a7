import Verif.Props.AucDouble
import Verif.Spec.BootAuc

/-! # Property C117: the area of a bootstrap replicate is the area of the resampled data -/

set_option linter.unusedSectionVars false

namespace Mlp.Props
open Mlp.PerfR Mlp.Perf Mlp.BootR Mlp.Boot Mlp.Util Mlp.Spec Mlp.Lemmas Mlp.CurveR Mlp.Classif Mlp.Frame Mlp.Round

section
variable {K : Type} [Field K] [LinearOrder K] [IsStrictOrderedRing K]

/-! ### The Mann-Whitney statistic as a ratio of sums -/

/-- Sum over all pairs. -/
def pairSum {β : Type} (L : List β) (p q : β → K) (o : β → β → K) : K :=
  (L.map fun a => (L.map fun b => p a * q b * o a b).sum).sum

theorem pairSum_one {β : Type} (L : List β) (p q : β → K) :
    pairSum L p q (fun _ _ => 1) = (L.map p).sum * (L.map q).sum := by
  unfold pairSum
  simp only [mul_one, List.sum_map_mul_left]
  rw [List.sum_map_mul_right]

theorem pairSum_mono {β : Type} {L : List β} {p q p' q' : β → K} {o o' : β → β → K}
    (h : ∀ a ∈ L, ∀ b ∈ L, p a * q b * o a b ≤ p' a * q' b * o' a b) : pairSum L p q o ≤ pairSum L p' q' o' :=
  List.sum_le_sum fun a ha => List.sum_le_sum fun b hb => h a ha b hb

theorem sum_map_sub' {β : Type} (L : List β) (f g : β → K) : (L.map fun a => f a - g a).sum = (L.map f).sum - (L.map g).sum := by
  induction L with
  | nil => simp
  | cons a L ih => simp only [List.map_cons, List.sum_cons, ih]; ring

theorem pairSum_sub {β : Type} (L : List β) (p q p' q' : β → K) (o : β → β → K) :
    pairSum L p q o - pairSum L p' q' o = (L.map fun a => (L.map fun b => (p a * q b - p' a * q' b) * o a b).sum).sum := by
  unfold pairSum
  rw [← sum_map_sub']
  congr 1
  refine List.map_congr_left fun a _ => ?_
  rw [← sum_map_sub']
  congr 1
  refine List.map_congr_left fun b _ => ?_
  ring

/-- Making weights larger changes the mean over all pairs by no more than the share of the new weight. -/
theorem pairSum_near {β : Type} {L : List β} {p q p' q' : β → K} {o : β → β → K}
    (h0 : ∀ a ∈ L, 0 ≤ p a ∧ 0 ≤ q a) (h1 : ∀ a ∈ L, p a ≤ p' a ∧ q a ≤ q' a) (ho : ∀ a ∈ L, ∀ b ∈ L, 0 ≤ o a b ∧ o a b ≤ 1)
    (hA : 0 < (L.map p).sum * (L.map q).sum) :
    |pairSum L p' q' o / ((L.map p').sum * (L.map q').sum) - pairSum L p q o / ((L.map p).sum * (L.map q).sum)| ≤
      ((L.map p').sum * (L.map q').sum - (L.map p).sum * (L.map q).sum) / ((L.map p).sum * (L.map q).sum) := by
  have hle : ∀ a ∈ L, ∀ b ∈ L, p a * q b ≤ p' a * q' b := fun a ha b hb =>
    mul_le_mul (h1 a ha).1 (h1 b hb).2 (h0 b hb).2 ((h0 a ha).1.trans (h1 a ha).1)
  have hp0 : ∀ a ∈ L, ∀ b ∈ L, 0 ≤ p a * q b := fun a ha b hb => mul_nonneg (h0 a ha).1 (h0 b hb).2
  have hO0 : 0 ≤ pairSum L p q o := List.sum_nonneg fun x hx => by
    obtain ⟨a, ha, rfl⟩ := List.mem_map.1 hx
    refine List.sum_nonneg fun z hz => ?_
    obtain ⟨b, hb, rfl⟩ := List.mem_map.1 hz
    exact mul_nonneg (hp0 a ha b hb) (ho a ha b hb).1
  have hO1 : pairSum L p q o ≤ (L.map p).sum * (L.map q).sum := by
    rw [← pairSum_one]
    exact pairSum_mono fun a ha b hb => mul_le_mul_of_nonneg_left (ho a ha b hb).2 (hp0 a ha b hb)
  have hd0 : pairSum L p q o ≤ pairSum L p' q' o :=
    pairSum_mono fun a ha b hb => mul_le_mul_of_nonneg_right (hle a ha b hb) (ho a ha b hb).1
  have hd1 : pairSum L p' q' o - pairSum L p q o ≤ (L.map p').sum * (L.map q').sum - (L.map p).sum * (L.map q).sum := by
    rw [← pairSum_one, ← pairSum_one, pairSum_sub, pairSum_sub]
    refine List.sum_le_sum fun a ha => List.sum_le_sum fun b hb => ?_
    exact mul_le_mul_of_nonneg_left (ho a ha b hb).2 (sub_nonneg.2 (hle a ha b hb))
  have hAB : (L.map p).sum * (L.map q).sum ≤ (L.map p').sum * (L.map q').sum := by
    rw [← pairSum_one, ← pairSum_one]
    exact pairSum_mono fun a ha b hb => by rw [mul_one, mul_one]; exact hle a ha b hb
  generalize pairSum L p q o = O at *
  generalize pairSum L p' q' o = O' at *
  generalize (L.map p).sum * (L.map q).sum = A at *
  generalize (L.map p').sum * (L.map q').sum = B at *
  have hB : 0 < B := hA.trans_le hAB
  rw [div_sub_div _ _ hB.ne' hA.ne', abs_div, abs_of_pos (mul_pos hB hA), div_le_div_iff₀ (mul_pos hB hA) hA]
  have key : |O' * A - B * O| ≤ (B - A) * B := by
    rw [abs_le]
    constructor
    · nlinarith
    · nlinarith
  calc |O' * A - B * O| * A ≤ (B - A) * B * A := mul_le_mul_of_nonneg_right key hA.le
    _ = (B - A) * (B * A) := by ring

theorem ordered_unit (a b : K) : 0 ≤ ordered a b ∧ ordered a b ≤ 1 := by
  unfold ordered
  split_ifs <;> norm_num

/-- The part of a weight that belongs to the positive samples. -/
def posPart (y : List Bool) (w : List K) (i : Nat) : K := if y.getD i false then w.getD i 0 else 0

/-- The part of a weight that belongs to the negative samples. -/
def negPart (y : List Bool) (w : List K) (i : Nat) : K := if y.getD i false then 0 else w.getD i 0

theorem samples_range {y : List Bool} {s w : List K} (h1 : s.length = y.length) (h2 : w.length = y.length) :
    samples y s w = (List.range y.length).map fun i => ⟨s.getD i 0, y.getD i false, w.getD i 0⟩ := by
  refine List.ext_getElem (by simp [samples, h1, h2]) fun i hi hi' => ?_
  have hiy : i < y.length := by simpa using hi'
  simp [samples, hiy, h1, h2]

theorem mannWhitney_pairs {y : List Bool} {s w : List K} (h1 : s.length = y.length) (h2 : w.length = y.length) :
    mannWhitney (samples y s w) =
      pairSum (List.range y.length) (posPart y w) (negPart y w) (fun i j => ordered (s.getD i 0) (s.getD j 0)) /
        (((List.range y.length).map (posPart y w)).sum * ((List.range y.length).map (negPart y w)).sum) := by
  unfold mannWhitney
  rw [samples_range h1 h2]
  congr 1
  · unfold orderedPairs pairSum
    rw [List.map_map]
    congr 1
    refine List.map_congr_left fun i _ => ?_
    simp only [Function.comp_apply, List.map_map, posPart, negPart]
    by_cases hi : y.getD i false = true
    · rw [if_pos hi]
      congr 1
      refine List.map_congr_left fun j _ => ?_
      simp only [Function.comp_apply, if_pos hi]
      split_ifs
      · ring
      · rfl
    · simp only [if_neg hi, zero_mul, List.map_const', List.sum_replicate, smul_zero]
  · unfold posTotal negTotal wsum
    rw [List.map_map, List.map_map]
    congr 2
    refine List.map_congr_left fun i _ => ?_
    simp only [Function.comp_apply, negPart]
    cases y.getD i false <;> simp

/-! ### Repeated samples -/

theorem weighted_repeated {k : List Nat} {y : List Bool} {s : List K} (hl : s.length = y.length) (hk : k.length = y.length)
    (g : K → Bool → K) {m : Nat} (hm : m = (repeated k y).length) :
    ((samples (repeated k y) (repeated k s) (List.replicate m 1)).map fun a => a.weight * g a.score a.label).sum =
      ((samples y s (k.map fun (n : Nat) => (n : K))).map fun a => a.weight * g a.score a.label).sum := by
  have app : ∀ {y y' : List Bool} {s s' w w' : List K}, s.length = y.length → w.length = y.length →
      samples (y ++ y') (s ++ s') (w ++ w') = samples y s w ++ samples y' s' w' := by
    intro y y' s s' w w' h1 h2
    unfold samples
    rw [List.zip_append (by rw [h1, h2]), List.zipWith_append (by simp [h1, h2])]
  subst hm
  induction y generalizing s k with
  | nil =>
    cases k <;> cases s <;> simp at hl hk
    rfl
  | cons b y ih =>
    cases s with
    | nil => simp at hl
    | cons v s =>
      cases k with
      | nil => simp at hk
      | cons n k =>
        simp only [List.length_cons, Nat.add_right_cancel_iff] at hl hk
        have e1 : repeated (n :: k) (b :: y) = List.replicate n b ++ repeated k y := by simp [repeated]
        have e2 : repeated (n :: k) (v :: s) = List.replicate n v ++ repeated k s := by simp [repeated]
        have e3 : samples (List.replicate n b) (List.replicate n v) (List.replicate n 1) =
            List.replicate n (⟨v, b, 1⟩ : Sample K) := by
          unfold samples
          simp
        rw [e1, e2, List.length_append, List.length_replicate, List.replicate_add, app (by simp) (by simp),
          List.map_append, List.sum_append, ih hl hk, e3, List.map_replicate, List.sum_replicate]
        simp [samples]

theorem mannWhitney_repeated {k : List Nat} {y : List Bool} {s : List K} (hl : s.length = y.length) (hk : k.length = y.length)
    {m : Nat} (hm : m = (repeated k y).length) :
    mannWhitney (samples (repeated k y) (repeated k s) (List.replicate m 1)) =
      mannWhitney (samples y s (k.map fun (n : Nat) => (n : K))) := by
  have pairs : ∀ S : List (Sample K), orderedPairs S = (S.map fun a => a.weight * (if a.label then
      (S.map fun b => b.weight * (if b.label then 0 else ordered a.score b.score)).sum else 0)).sum := by
    intro S
    unfold orderedPairs
    congr 1
    refine List.map_congr_left fun a _ => ?_
    by_cases ha : a.label = true
    · rw [if_pos ha, if_pos ha, ← List.sum_map_mul_left]
      congr 1
      refine List.map_congr_left fun b _ => ?_
      split_ifs <;> ring
    · rw [if_neg ha, if_neg ha, mul_zero]
  unfold mannWhitney posTotal negTotal
  rw [samples_repeated hl hk _ (fun _ _ _ _ => rfl) m hm, samples_repeated hl hk _ (fun _ _ _ _ => rfl) m hm]
  congr 1
  rw [pairs, pairs]
  have inner : ∀ (v : K), ((samples (repeated k y) (repeated k s) (List.replicate m 1)).map fun b =>
        b.weight * (if b.label then 0 else ordered v b.score)).sum =
      ((samples y s (k.map fun (n : Nat) => (n : K))).map fun b => b.weight * (if b.label then 0 else ordered v b.score)).sum :=
    fun v => weighted_repeated hl hk (fun v' b => if b then 0 else ordered v v') hm
  simp only [inner]
  exact weighted_repeated hl hk (fun v b => if b then
    ((samples y s (k.map fun (n : Nat) => (n : K))).map fun b => b.weight * (if b.label then 0 else ordered v b.score)).sum else 0) hm

/-! ### C117 -/

/-- The weights of one class: up to a factor, those of the used samples and a little more. -/
theorem class_part {L : List Nat} (c : Nat → Bool) (k : Nat → Nat) {ε : K} (hε : 0 < ε) (hc : ∃ i ∈ L, c i = true) :
    ∃ (a : K) (p' : Nat → K), 0 < a ∧ (∀ i ∈ L, (if c i then max ε (k i : K) else 0) = a * p' i) ∧
      (∀ i ∈ L, (if c i then (((if ∃ j ∈ L, c j = true ∧ 1 ≤ k j then k i else 1 : Nat)) : K) else 0) ≤ p' i) ∧
      (L.map p').sum ≤ (L.map fun i => if c i then (((if ∃ j ∈ L, c j = true ∧ 1 ≤ k j then k i else 1 : Nat)) : K) else 0).sum +
        ε * (L.map fun i => if c i then (1 : K) else 0).sum ∧
      1 ≤ (L.map fun i => if c i then (((if ∃ j ∈ L, c j = true ∧ 1 ≤ k j then k i else 1 : Nat)) : K) else 0).sum := by
  have single : ∀ {f : Nat → K} {i : Nat}, (∀ j ∈ L, 0 ≤ f j) → i ∈ L → f i ≤ (L.map f).sum := by
    intro f i hf hi
    refine List.single_le_sum (fun x hx => ?_) _ (List.mem_map_of_mem hi)
    obtain ⟨j, hj, rfl⟩ := List.mem_map.1 hx
    exact hf j hj
  by_cases hd : ∃ j ∈ L, c j = true ∧ 1 ≤ k j
  · simp only [if_pos hd]
    refine ⟨1, fun i => if c i then max ε (k i : K) else 0, one_pos, fun i _ => (one_mul _).symm, fun i _ => ?_, ?_, ?_⟩
    · simp only
      split_ifs
      · exact le_max_right _ _
      · exact le_rfl
    · rw [← List.sum_map_mul_left, ← List.sum_map_add]
      refine List.sum_le_sum fun i _ => ?_
      split_ifs
      · have : (0 : K) ≤ k i := Nat.cast_nonneg _
        refine max_le ?_ ?_ <;> linarith
      · simp
    · obtain ⟨i, hi, hci, hki⟩ := hd
      have := single (f := fun i => if c i then (k i : K) else 0) (fun j _ => by
        split_ifs
        · exact Nat.cast_nonneg _
        · exact le_rfl) hi
      simp only [hci, if_true] at this
      have h1 : (1 : K) ≤ k i := by exact_mod_cast hki
      exact h1.trans this
  · simp only [if_neg hd]
    refine ⟨ε, fun i => if c i then 1 else 0, hε, fun i hi => ?_, fun i _ => by simp, ?_, ?_⟩
    · by_cases hci : c i = true
      · have : k i = 0 := by
          by_contra h0
          exact hd ⟨i, hi, hci, by omega⟩
        simp [hci, this, hε.le]
      · simp [hci]
    · simp only [Nat.cast_one]
      have : 0 ≤ ε * (L.map fun i => if c i then (1 : K) else 0).sum := by
        refine mul_nonneg hε.le (List.sum_nonneg fun x hx => ?_)
        obtain ⟨j, -, rfl⟩ := List.mem_map.1 hx
        split_ifs <;> norm_num
      linarith
    · obtain ⟨i, hi, hci⟩ := hc
      have := single (f := fun i => if c i then (((1 : Nat)) : K) else 0) (fun j _ => by
        split_ifs <;> norm_num) hi
      simp only [hci, if_true] at this
      simpa using this

theorem pairSum_scale {β : Type} {L : List β} {p q p' q' : β → K} {a b : K} (o : β → β → K) (hp : ∀ i ∈ L, p i = a * p' i)
    (hq : ∀ i ∈ L, q i = b * q' i) : pairSum L p q o = a * b * pairSum L p' q' o := by
  unfold pairSum
  rw [← List.sum_map_mul_left]
  congr 1
  refine List.map_congr_left fun i hi => ?_
  rw [← List.sum_map_mul_left]
  congr 1
  refine List.map_congr_left fun j hj => ?_
  rw [hp i hi, hq j hj]
  ring

theorem usedCounts_length {y : List Bool} {k : List Nat} (hk : k.length = y.length) : (usedCounts y k).length = y.length := by
  simp [usedCounts, hk]

theorem drawn_iff {y : List Bool} {k : List Nat} (hk : k.length = y.length) (b : Bool) :
    (∃ p ∈ y.zip k, p.1 = b ∧ 1 ≤ p.2) ↔ ∃ j ∈ List.range y.length, y.getD j false = b ∧ 1 ≤ k.getD j 0 := by
  constructor
  · rintro ⟨p, hp, h1, h2⟩
    obtain ⟨j, hj, rfl⟩ := List.mem_iff_getElem.1 hp
    have hj' : j < y.length := by simp at hj; omega
    refine ⟨j, List.mem_range.2 hj', ?_⟩
    simp at h1 h2
    simp [hj', hk, h1, h2]
  · rintro ⟨j, hj, h1, h2⟩
    have hj' := List.mem_range.1 hj
    refine ⟨(y[j], k[j]'(by omega)), ?_, ?_⟩
    · rw [List.mem_iff_getElem]
      exact ⟨j, by simp; omega, by simp⟩
    · simp [hj', hk] at h1 h2
      exact ⟨h1, h2⟩

/-- **C117, statistic.**  Weights that count how often each sample was drawn, with a small `ε` for 0: the Mann-Whitney statistic
is within `2 n ε` of that of the resampled data.  A class of which nothing was drawn is used as a whole. -/
theorem C117_statistic {y : List Bool} {s : List K} {k : List Nat} {ε : K} (hl : s.length = y.length) (hk : k.length = y.length)
    (hpos : true ∈ y) (hneg : false ∈ y) (hε : 0 < ε) (hnε : y.length * ε ≤ 1) {m : Nat}
    (hm : m = (repeated (usedCounts y k) y).length) :
    |mannWhitney (samples y s (k.map fun (n : Nat) => max ε (n : K))) -
      mannWhitney (samples (repeated (usedCounts y k) y) (repeated (usedCounts y k) s) (List.replicate m 1))| ≤
      2 * (y.length * ε) := by
  rw [mannWhitney_repeated hl (usedCounts_length hk) hm, mannWhitney_pairs hl (by simp [hk]),
    mannWhitney_pairs hl (by simp [usedCounts_length hk])]
  have hmem : ∀ {b : Bool}, b ∈ y → ∃ i ∈ List.range y.length, y.getD i false = b := by
    intro b hb
    obtain ⟨i, hi, rfl⟩ := List.mem_iff_getElem.1 hb
    exact ⟨i, List.mem_range.2 hi, by simp [hi]⟩
  set L := List.range y.length with hL
  obtain ⟨a, p', ha, hp1, hp2, hp3, hp4⟩ := class_part (L := L) (fun i => y.getD i false) (fun i => k.getD i 0) hε (hmem hpos)
  obtain ⟨b, q', hb, hq1, hq2, hq3, hq4⟩ := class_part (L := L) (fun i => !y.getD i false) (fun i => k.getD i 0) hε (by
    obtain ⟨i, hi, h0⟩ := hmem hneg
    exact ⟨i, hi, by simp only [h0, Bool.not_false]⟩)
  have used : ∀ i ∈ L, ((usedCounts y k).map fun (n : Nat) => (n : K)).getD i 0 =
      (((if ∃ j ∈ L, y.getD j false = y.getD i false ∧ 1 ≤ k.getD j 0 then k.getD i 0 else 1 : Nat)) : K) := by
    intro i hi
    have hi' := List.mem_range.1 hi
    have hd := drawn_iff hk (y.getD i false)
    have hyi : y.getD i false = y[i] := by simp [hi']
    rw [hyi] at hd ⊢
    simp only [← hL] at hd
    have e : ((usedCounts y k).map fun (n : Nat) => (n : K)).getD i 0 = ((usedCounts y k)[i]'(by rw [usedCounts_length hk]; exact hi') : Nat) := by
      simp [usedCounts_length hk, hi']
    rw [e]
    simp only [usedCounts, List.getElem_zipWith]
    have hki : k.getD i 0 = k[i]'(by omega) := by simp [hk, hi']
    rw [hki]
    simp only [hd]
  have wt : ∀ i ∈ L, (k.map fun (n : Nat) => max ε (n : K)).getD i 0 = max ε ((k.getD i 0 : Nat) : K) := by
    intro i hi
    have hi' := List.mem_range.1 hi
    simp [hk, hi']
  have eP : ∀ i ∈ L, posPart y (k.map fun (n : Nat) => max ε (n : K)) i = a * p' i := by
    intro i hi
    rw [← hp1 i hi, posPart, wt i hi]
  have eQ : ∀ i ∈ L, negPart y (k.map fun (n : Nat) => max ε (n : K)) i = b * q' i := by
    intro i hi
    rw [← hq1 i hi, negPart, wt i hi]
    cases y.getD i false <;> simp
  have uP : ∀ i ∈ L, posPart y ((usedCounts y k).map fun (n : Nat) => (n : K)) i =
      if y.getD i false then (((if ∃ j ∈ L, y.getD j false = true ∧ 1 ≤ k.getD j 0 then k.getD i 0 else 1 : Nat)) : K) else 0 := by
    intro i hi
    rw [posPart, used i hi]
    by_cases h : y.getD i false = true
    · simp only [h]
    · rw [if_neg h, if_neg h]
  have uQ : ∀ i ∈ L, negPart y ((usedCounts y k).map fun (n : Nat) => (n : K)) i =
      if !y.getD i false then (((if ∃ j ∈ L, (!y.getD j false) = true ∧ 1 ≤ k.getD j 0 then k.getD i 0 else 1 : Nat)) : K) else 0 := by
    intro i hi
    rw [negPart, used i hi]
    by_cases h : y.getD i false = true
    · simp only [h, Bool.not_true, if_true, Bool.false_eq_true, if_false]
    · rw [Bool.not_eq_true] at h
      simp only [h, Bool.not_false, if_true, Bool.false_eq_true, if_false, Bool.not_eq_true']
  rw [← List.map_congr_left uP] at hp3 hp4
  rw [← List.map_congr_left uQ] at hq3 hq4
  have hp2' : ∀ i ∈ L, posPart y ((usedCounts y k).map fun (n : Nat) => (n : K)) i ≤ p' i := fun i hi => by
    rw [uP i hi]; exact hp2 i hi
  have hq2' : ∀ i ∈ L, negPart y ((usedCounts y k).map fun (n : Nat) => (n : K)) i ≤ q' i := fun i hi => by
    rw [uQ i hi]; exact hq2 i hi
  have nn : ∀ i ∈ L, 0 ≤ posPart y ((usedCounts y k).map fun (n : Nat) => (n : K)) i ∧
      0 ≤ negPart y ((usedCounts y k).map fun (n : Nat) => (n : K)) i := by
    intro i hi
    rw [posPart, negPart, used i hi]
    constructor <;> split_ifs <;> first | exact Nat.cast_nonneg _ | exact le_rfl
  have sP : (L.map (posPart y (k.map fun (n : Nat) => max ε (n : K)))).sum = a * (L.map p').sum := by
    rw [← List.sum_map_mul_left, List.map_congr_left eP]
  have sQ : (L.map (negPart y (k.map fun (n : Nat) => max ε (n : K)))).sum = b * (L.map q').sum := by
    rw [← List.sum_map_mul_left, List.map_congr_left eQ]
  rw [pairSum_scale _ eP eQ, sP, sQ, show a * (L.map p').sum * (b * (L.map q').sum) = a * b * ((L.map p').sum * (L.map q').sum) by ring,
    mul_div_mul_left _ _ (mul_pos ha hb).ne']
  have hA : (0 : K) < (L.map (posPart y ((usedCounts y k).map fun (n : Nat) => (n : K)))).sum *
      (L.map (negPart y ((usedCounts y k).map fun (n : Nat) => (n : K)))).sum :=
    mul_pos (by linarith) (by linarith)
  refine (pairSum_near nn (fun i hi => ⟨hp2' i hi, hq2' i hi⟩) (fun i _ j _ => ordered_unit _ _) hA).trans ?_
  rw [div_le_iff₀ hA]
  have hcount : (L.map fun i => if y.getD i false then (1 : K) else 0).sum + (L.map fun i => if !y.getD i false then (1 : K) else 0).sum =
      y.length := by
    rw [← List.sum_map_add]
    have : (L.map fun i => (if y.getD i false then (1 : K) else 0) + if !y.getD i false then (1 : K) else 0) = L.map fun _ => 1 :=
      List.map_congr_left fun i _ => by cases y.getD i false <;> simp
    rw [this]
    simp [hL]
  have hca : 0 ≤ (L.map fun i => if y.getD i false then (1 : K) else 0).sum := List.sum_nonneg fun x hx => by
    obtain ⟨j, -, rfl⟩ := List.mem_map.1 hx
    split_ifs <;> norm_num
  have hcb : 0 ≤ (L.map fun i => if !y.getD i false then (1 : K) else 0).sum := List.sum_nonneg fun x hx => by
    obtain ⟨j, -, rfl⟩ := List.mem_map.1 hx
    split_ifs <;> norm_num
  have hP'0 : 0 ≤ (L.map p').sum := List.sum_nonneg fun x hx => by
    obtain ⟨j, hj, rfl⟩ := List.mem_map.1 hx
    exact (nn j hj).1.trans (hp2' j hj)
  generalize (L.map fun i => if y.getD i false then (1 : K) else 0).sum = A at *
  generalize (L.map fun i => if !y.getD i false then (1 : K) else 0).sum = B at *
  generalize (L.map (posPart y ((usedCounts y k).map fun (n : Nat) => (n : K)))).sum = P at *
  generalize (L.map (negPart y ((usedCounts y k).map fun (n : Nat) => (n : K)))).sum = Q at *
  generalize (L.map p').sum = P' at *
  generalize (L.map q').sum = Q' at *
  rw [← hcount] at hnε ⊢
  have g1 : P' ≤ P * (1 + ε * A) := by nlinarith [mul_nonneg hε.le hca]
  have g2 : Q' ≤ Q * (1 + ε * B) := by nlinarith [mul_nonneg hε.le hcb]
  have g3 : P' * Q' ≤ (P * (1 + ε * A)) * (Q * (1 + ε * B)) := by
    refine (mul_le_mul_of_nonneg_left g2 hP'0).trans (mul_le_mul_of_nonneg_right g1 ?_)
    have := mul_nonneg hε.le hcb
    exact mul_nonneg (by linarith) (by linarith)
  have g4 : (1 + ε * A) * (1 + ε * B) - 1 ≤ 2 * ((A + B) * ε) := by
    nlinarith [mul_nonneg hε.le hca, mul_nonneg hε.le hcb]
  have g5 : P * (1 + ε * A) * (Q * (1 + ε * B)) - P * Q = ((1 + ε * A) * (1 + ε * B) - 1) * (P * Q) := by ring
  have g6 := mul_le_mul_of_nonneg_right g4 hA.le
  linarith

theorem used_mem {α : Type} {k : List Nat} {l : List α} {i : Nat} (hk : i < k.length) (hl : i < l.length) (h : 1 ≤ k[i]) :
    l[i] ∈ repeated k l := by
  refine List.mem_flatten.2 ⟨List.replicate k[i] l[i], ?_, List.mem_replicate.2 ⟨by omega, rfl⟩⟩
  rw [List.mem_iff_getElem]
  exact ⟨i, by simp; omega, by simp⟩

theorem length_repeated {α β : Type} {k : List Nat} {l : List α} {l' : List β} (h : l'.length = l.length) :
    (repeated k l').length = (repeated k l).length := by
  unfold repeated
  induction k generalizing l l' with
  | nil => simp
  | cons n k ih =>
    cases l <;> cases l' <;> simp_all
    exact ih h

/-- A replicate uses both classes. -/
theorem used_class {y : List Bool} {k : List Nat} (hk : k.length = y.length) {b : Bool} (hb : b ∈ y) :
    b ∈ repeated (usedCounts y k) y := by
  have key : ∃ i, ∃ hi : i < y.length, y[i] = b ∧ 1 ≤ (usedCounts y k)[i]'(by rw [usedCounts_length hk]; exact hi) := by
    by_cases hd : ∃ p ∈ y.zip k, p.1 = b ∧ 1 ≤ p.2
    · obtain ⟨p, hp, h1, h2⟩ := id hd
      obtain ⟨j, hj, rfl⟩ := List.mem_iff_getElem.1 hp
      have hj' : j < y.length := by simp at hj; omega
      simp only [List.getElem_zip] at h1 h2
      refine ⟨j, hj', h1, ?_⟩
      simp only [usedCounts, List.getElem_zipWith, h1, if_pos hd]
      exact h2
    · obtain ⟨j, hj, h1⟩ := List.mem_iff_getElem.1 hb
      refine ⟨j, hj, h1, ?_⟩
      simp only [usedCounts, List.getElem_zipWith, h1, if_neg hd]
      exact le_rfl
  obtain ⟨i, hi, rfl, h1⟩ := key
  exact used_mem _ hi h1

/-- **C117.**  The area under the ROC curve of a bootstrap replicate is within `2 n ε` of the area under the ROC curve of the
resampled data, where `ε` is the weight of samples that were not drawn.  If nothing was drawn of a class then all its samples count. -/
theorem C117_area {y : List Bool} {s : List K} (hl : s.length = y.length) (hpos : true ∈ y) (hneg : false ∈ y) {ε : K} (hε : 0 < ε)
    (hnε : y.length * ε ≤ 1) {nBoot : Int} {counts : List (List Nat)} {w : List (List K)}
    (hw : bootWeights (y.length : Int) nBoot ε counts = .ok w) :
    ∃ c thr A, rocCurve y (finVec s) (some (finMat y.length w)) = .ok (c, thr) ∧ area c.x c.y c.kind = .ok (finVec A) ∧
      List.Forall₂ (fun k a => ∃ c' thr' a',
        rocCurve (repeated (usedCounts y k) y) (finVec (repeated (usedCounts y k) s)) none = .ok (c', thr') ∧
        area c'.x c'.y c'.kind = .ok [.fin a'] ∧ |a - a'| ≤ 2 * (y.length * ε)) counts A := by
  have hws : 1 ≤ nBoot ∧ w = countRows ε counts ∧ (counts.length : Int) = nBoot ∧ ∀ row ∈ counts, row.length = y.length := by
    unfold bootWeights at hw
    simp only [bind_ok_iff, exists_unit, pyAssert_eq_ok, decide_eq_true_eq, pure_eq_ok, Except.ok.injEq, Bool.and_eq_true,
      List.all_eq_true, List.length_map] at hw
    obtain ⟨-, h2, ⟨h3, h4⟩, rfl⟩ := hw
    refine ⟨h2, rfl, h3, fun row hrow => ?_⟩
    have := h4 _ (List.mem_map_of_mem hrow)
    simpa using this
  obtain ⟨hb1, rfl, hlen, hrow⟩ := hws
  have hin : CurveInput y s (some (countRows ε counts)) := by
    refine ⟨hl, List.ne_nil_of_mem hpos, ?_, ?_⟩
    · simp only [weightRows, Option.getD_some, countRows, ne_eq, List.map_eq_nil_iff]
      rintro rfl
      simp at hlen
      omega
    · intro w hw'
      obtain ⟨row, hr, rfl⟩ := List.mem_map.1 hw'
      refine ⟨by simp [hrow row hr], fun v hv => ?_⟩
      obtain ⟨n, -, rfl⟩ := List.mem_map.1 hv
      exact lt_max_of_lt_left hε
  have e := roc_of hin (thresholdsOf_spec hin.scores_ne)
  refine ⟨_, _, _, e, C68_mann_whitney hin hpos hneg e, ?_⟩
  simp only [weightRows, Option.getD_some, countRows, List.map_map, List.forall₂_map_right_iff, Function.comp_apply]
  rw [List.forall₂_same]
  intro k hk
  have hkl := hrow k hk
  have hp' := used_class hkl hpos
  have hn' := used_class hkl hneg
  have hin' : CurveInput (repeated (usedCounts y k) y) (repeated (usedCounts y k) s) none :=
    ⟨length_repeated hl, List.ne_nil_of_mem hp', by simp [weightRows], by simp [weightRows]⟩
  have e' := roc_of hin' (thresholdsOf_spec hin'.scores_ne)
  exact ⟨_, _, _, e', C68_mann_whitney hin' hp' hn' e', C117_statistic hl hkl hpos hneg hε hnε rfl⟩

/-- **C117, doubles.**  In double precision the area of each replicate that drew a negative sample is within `37 n² / 2^53` plus
`2 n ε` of the Mann-Whitney statistic of the resampled data, where `ε` is the double nearest to 1e-10. -/
theorem C117_double [FloorRing K] {sumR : List K → K} (hs : AddsAlongTrees binary64 sumR) {y : List Bool} {s : List K}
    (hl : s.length = y.length)
    (hn : y.length ≤ 3000) (hpos : true ∈ y) (hneg : false ∈ y) {counts : List (List Nat)} (hc : counts ≠ [])
    (hcr : ∀ row ∈ counts, row.length = y.length ∧ row.sum = y.length) :
    ∃ c thr A, rocCurveR binary64 sumR y (finVec s)
        (some (finMat y.length (countRows (binary64 (1 / 10000000000)) counts))) = .ok (c, thr) ∧
      areaR binary64 sumR c.x c.y c.kind = .ok (finVec A) ∧
      List.Forall₂ (fun row a => (∃ i k : Nat, y[i]? = some false ∧ row[i]? = some k ∧ 1 ≤ k) →
        |a - mannWhitney (samples (repeated (usedCounts y row) y) (repeated (usedCounts y row) s)
          (List.replicate (repeated (usedCounts y row) y).length 1))| ≤
          37 * (y.length ^ 2 * (1 / 2 ^ 53)) + y.length * (3 / 10000000000)) counts A := by
  obtain ⟨c, thr, A, h1, h2, h3⟩ := C116_bootstrap hs hl hn hpos hneg hc hcr
  refine ⟨c, thr, A, h1, h2, ?_⟩
  have he := eps_bounds (K := K)
  rw [List.forall₂_iff_get] at h3 ⊢
  refine ⟨h3.1, fun i hi hi' => ?_⟩
  have hrow := hcr _ (List.get_mem counts ⟨i, hi⟩)
  have hi3 := h3.2 i hi hi'
  generalize A.get ⟨i, hi'⟩ = a at *
  generalize counts.get ⟨i, hi⟩ = row at *
  intro hdr
  have g1 := hi3 hdr
  have hn' : (y.length : K) ≤ 3000 := by exact_mod_cast hn
  have hn0 : (0 : K) ≤ y.length := Nat.cast_nonneg _
  have g3 : (y.length : K) * binary64 (1 / 10000000000) ≤ y.length * (101 / 1000000000000) :=
    mul_le_mul_of_nonneg_left he.2 hn0
  have g2 := C117_statistic (ε := binary64 (1 / 10000000000 : K)) hl hrow.1 hpos hneg (by linarith [he.1]) (by linarith)
    (m := (repeated (usedCounts y row) y).length) rfl
  exact (abs_sub_le _ _ _).trans ((add_le_add g1 g2).trans (by linarith))

/-- C117, concrete: of the three samples the first was drawn once and the second twice. -/
example : usedCounts [true, false, true] [1, 2, 0] = [1, 2, 0] ∧ usedCounts [true, false, true] [2, 0, 1] = [2, 1, 1] ∧
    repeated [1, 2, 0] [true, false, true] = [true, false, false] := by decide

example : ∃ c thr A, rocCurve [true, false, true] (finVec [3, 2, (2 : ℚ)])
      (some (finMat 3 [[1, 2, 1 / 10000000000], [2, 1 / 10000000000, 1]])) = .ok (c, thr) ∧
    area c.x c.y c.kind = .ok (finVec A) ∧ A.length = 2 := by
  have hw : bootWeights (3 : Int) 2 (1 / 10000000000 : ℚ) [[1, 2, 0], [2, 0, 1]] =
      .ok [[1, 2, 1 / 10000000000], [2, 1 / 10000000000, 1]] := by
    decide +kernel
  obtain ⟨c, thr, A, h1, h2, h3⟩ := C117_area (y := [true, false, true]) (s := [3, 2, (2 : ℚ)]) rfl (by simp) (by simp)
    (by norm_num : (0 : ℚ) < 1 / 10000000000) (by norm_num) hw
  exact ⟨c, thr, A, h1, h2, h3.length_eq.symm⟩

end
end Mlp.Props
