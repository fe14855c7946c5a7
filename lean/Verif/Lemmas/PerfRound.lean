import Verif.Model.PerfRound
import Verif.Lemmas.PerfCurves
import Verif.Lemmas.Binary64

/-! # Lemmas on the curves in floating point arithmetic -/

set_option linter.unusedSectionVars false

namespace Mlp.Lemmas
open Mlp.Util Mlp.Perf Mlp.PerfR Mlp.Spec Mlp.Round

section
variable {K : Type} [Field K] [LinearOrder K] [IsStrictOrderedRing K] {rnd : K → K}

theorem _root_.Mlp.Round.MonoRounding.nonneg (hr : MonoRounding rnd) {x : K} (h : 0 ≤ x) : 0 ≤ rnd x := hr.zero ▸ hr.mono h

theorem _root_.Mlp.Round.MonoRounding.le_one (hr : MonoRounding rnd) {x : K} (h : x ≤ 1) : rnd x ≤ 1 := hr.one ▸ hr.mono h

theorem _root_.Mlp.Round.MonoRounding.le_of (hr : MonoRounding rnd) {x y : K} (hy : rnd y = y) (h : x ≤ y) : rnd x ≤ y := hy ▸ hr.mono h

theorem _root_.Mlp.Round.MonoRounding.ge_of (hr : MonoRounding rnd) {x y : K} (hy : rnd y = y) (h : y ≤ x) : y ≤ rnd x := hy ▸ hr.mono h

theorem _root_.Mlp.Round.FloatRounding.eq_zero_iff (hr : FloatRounding rnd) (x : K) : rnd x = 0 ↔ x = 0 := by
  refine ⟨fun h => ?_, fun h => by rw [h, hr.zero]⟩
  rcases lt_trichotomy x 0 with hx | hx | hx
  · have := hr.pos (-x) (by linarith)
    rw [hr.neg, h] at this
    simp at this
  · exact hx
  · have := hr.pos x hx
    rw [h] at this; exact absurd this (lt_irrefl _)

/-! ## Rounded running sums -/

/-- Add the entries one after the other, rounding after each addition. -/
def foldR (rnd : K → K) (acc : K) (l : List K) : K := l.foldl (fun (a v : K) => rnd (a + v)) acc

theorem foldR_nil (acc : K) : foldR rnd acc [] = acc := rfl

theorem foldR_cons (acc v : K) (l : List K) : foldR rnd acc (v :: l) = foldR rnd (rnd (acc + v)) l := rfl

theorem foldR_append (acc : K) (l l' : List K) : foldR rnd acc (l ++ l') = foldR rnd (foldR rnd acc l) l' :=
  List.foldl_append ..

theorem cumsumR_length (acc : K) (l : List K) : (cumsumR rnd acc l).length = l.length := by
  induction l generalizing acc with
  | nil => rfl
  | cons a l ih => simp [cumsumR, ih]

theorem cumsumR_getD (acc : K) (l : List K) (i : Nat) (h : i < l.length) :
    (cumsumR rnd acc l).getD i 0 = foldR rnd acc (l.take (i + 1)) := by
  induction l generalizing acc i with
  | nil => simp at h
  | cons a l ih =>
    cases i with
    | zero => simp [cumsumR, foldR_cons, foldR_nil]
    | succ i =>
      rw [List.take_succ_cons, foldR_cons, cumsumR, List.getD_cons_succ]
      exact ih _ _ (by simpa using h)

theorem takeIdx_cumsumR {σ : List Nat} {l : List K} (h : ∀ i ∈ σ, i < l.length) :
    takeIdx σ (cumsumR rnd 0 l) = .ok (σ.map fun i => foldR rnd 0 (l.take (i + 1))) := by
  have h' : ∀ i ∈ σ, i < (cumsumR rnd 0 l).length := fun i hi => by rw [cumsumR_length]; exact h i hi
  rw [takeIdx_reorder h', reorder_eq_map 0 h']
  congr 1
  exact List.map_congr_left fun i hi => cumsumR_getD _ _ _ (h i hi)

variable (hr : FloatRounding rnd)
include hr

theorem foldR_rounded {acc : K} (ha : rnd acc = acc) (l : List K) : rnd (foldR rnd acc l) = foldR rnd acc l := by
  induction l generalizing acc with
  | nil => exact ha
  | cons a l ih => rw [foldR_cons]; exact ih (hr.idem _)

theorem foldR_ge {acc : K} (ha : rnd acc = acc) {l : List K} (hl : ∀ v ∈ l, 0 ≤ v) : acc ≤ foldR rnd acc l := by
  induction l generalizing acc with
  | nil => exact le_rfl
  | cons a l ih =>
    rw [foldR_cons]
    refine le_trans ?_ (ih (hr.idem _) fun v hv => hl v (List.mem_cons_of_mem _ hv))
    exact hr.ge_of ha (by linarith [hl a List.mem_cons_self])

theorem foldR_mono {acc acc' : K} (ha : acc ≤ acc') {l l' : List K} (hl : List.Forall₂ (· ≤ ·) l l') :
    foldR rnd acc l ≤ foldR rnd acc' l' := by
  induction hl generalizing acc acc' with
  | nil => exact ha
  | cons h _ ih =>
    rw [foldR_cons, foldR_cons]
    exact ih (hr.mono (add_le_add ha h))

theorem foldR_take_mono {l : List K} (hl : ∀ v ∈ l, 0 ≤ v) {i j : Nat} (h : i ≤ j) :
    foldR rnd 0 (l.take i) ≤ foldR rnd 0 (l.take j) := by
  obtain ⟨k, rfl⟩ := Nat.exists_eq_add_of_le h
  rw [List.take_add, foldR_append]
  exact foldR_ge hr (foldR_rounded hr hr.zero _) fun v hv => hl v (List.mem_of_mem_drop (List.mem_of_mem_take hv))

theorem foldR_zero {l : List K} (hl : ∀ v ∈ l, v = 0) : foldR rnd 0 l = 0 := by
  induction l with
  | nil => rfl
  | cons a l ih =>
    rw [foldR_cons, hl a List.mem_cons_self, add_zero, hr.zero]
    exact ih fun v hv => hl v (List.mem_cons_of_mem _ hv)

theorem foldR_pos {acc : K} (ha : rnd acc = acc) (h0 : 0 ≤ acc) {l : List K} (hl : ∀ v ∈ l, 0 ≤ v) {v : K}
    (hv : v ∈ l) (hp : 0 < v) : 0 < foldR rnd acc l := by
  induction l generalizing acc with
  | nil => simp at hv
  | cons a l ih =>
    rw [foldR_cons]
    have hge := foldR_ge hr (hr.idem (acc + a)) fun v hv => hl v (List.mem_cons_of_mem _ hv)
    rcases List.mem_cons.1 hv with rfl | hv
    · exact lt_of_lt_of_le (hr.pos _ (by linarith)) hge
    · exact ih (hr.idem _) (hr.nonneg (add_nonneg h0 (hl a List.mem_cons_self)))
        (fun v hv => hl v (List.mem_cons_of_mem _ hv)) hv

omit hr in
/-- The error of a running sum of numbers that are not negative. -/
theorem foldR_error {u : K} (hu : 0 ≤ u) (he : RelError u rnd) {l : List K} (hl : ∀ v ∈ l, 0 ≤ v) :
    |foldR rnd 0 l - l.sum| ≤ ((1 + u) ^ l.length - 1) * l.sum := by
  induction l using List.reverseRecOn with
  | nil => simp [foldR]
  | append_singleton l a ih =>
    have hl' : ∀ v ∈ l, 0 ≤ v := fun v hv => hl v (List.mem_append_left _ hv)
    have ha : 0 ≤ a := hl a (by simp)
    have hS : 0 ≤ l.sum := List.sum_nonneg hl'
    have h1 := ih hl'
    have e : foldR rnd 0 (l ++ [a]) = rnd (foldR rnd 0 l + a) := by rw [foldR_append]; rfl
    rw [e, List.sum_append, List.sum_singleton, List.length_append, List.length_singleton, pow_succ]
    have h2 := he (foldR rnd 0 l + a)
    have hp : 1 ≤ (1 + u) ^ l.length := one_le_pow₀ (by linarith)
    set q := (1 + u) ^ l.length
    set s := foldR rnd 0 l
    set S := l.sum
    have h3 : |s + a| ≤ q * S + a := by
      rw [abs_le] at h1 ⊢
      constructor <;> nlinarith [mul_nonneg (by linarith : 0 ≤ q - 1) hS]
    have h4 : |rnd (s + a) - (s + a)| ≤ u * (q * S + a) := h2.trans (mul_le_mul_of_nonneg_left h3 hu)
    have h5 : |rnd (s + a) - (S + a)| ≤ u * (q * S + a) + (q - 1) * S := by
      have : rnd (s + a) - (S + a) = (rnd (s + a) - (s + a)) + (s - S) := by ring
      rw [this]
      exact (abs_add_le _ _).trans (add_le_add h4 h1)
    refine h5.trans ?_
    have : 0 ≤ (q * (1 + u) - 1 - u) * a := mul_nonneg (by nlinarith) ha
    nlinarith

omit hr in
/-- `(1 + u)^n` is at most `1 + 2nu` for `nu` at most one half. -/
theorem pow_one_add_le {u : K} (hu : 0 ≤ u) {n : Nat} (h : n * u ≤ 1 / 2) : (1 + u) ^ n - 1 ≤ 2 * (n * u) := by
  have h1 : (1 + u) ^ n * (1 - n * u) ≤ 1 := by
    have : ∀ m : Nat, m * u ≤ 1 / 2 → (1 + u) ^ m * (1 - m * u) ≤ 1 := by
      intro m
      induction m with
      | zero => simp
      | succ m ih =>
        intro hm
        push_cast at hm ⊢
        have hm' : m * u ≤ 1 / 2 := by nlinarith
        have := ih hm'
        have hq : 0 ≤ (1 + u) ^ m := by positivity
        have hmu : 0 ≤ m * u := by positivity
        rw [pow_succ]
        have e : (1 + u) * (1 - (m + 1) * u) ≤ 1 - m * u := by nlinarith [mul_nonneg hmu hu, mul_nonneg hu hu]
        calc (1 + u) ^ m * (1 + u) * (1 - (m + 1) * u) = (1 + u) ^ m * ((1 + u) * (1 - (m + 1) * u)) := by ring
          _ ≤ (1 + u) ^ m * (1 - m * u) := mul_le_mul_of_nonneg_left e hq
          _ ≤ 1 := this
    exact this n h
  have h0 : 0 ≤ n * u := by positivity
  have h2 : (1 + u) ^ n ≤ 1 / (1 - n * u) := by rw [le_div_iff₀ (by linarith)]; exact h1
  have h3 : 1 / (1 - n * u) ≤ 1 + 2 * (n * u) := by
    rw [div_le_iff₀ (by linarith)]
    nlinarith
  linarith


/-! ## The counts at the ends of the groups -/

omit hr in
/-- The rounded weight of the positive samples up to position `i`. -/
def tpR (rnd : K → K) (y : List Bool) (w : List K) (i : Nat) : K :=
  foldR rnd 0 ((List.zipWith (fun (b : Bool) (v : K) => boolNum b * v) y w).take (i + 1))

omit hr in
/-- The rounded weight of all samples up to position `i`. -/
def allR (rnd : K → K) (w : List K) (i : Nat) : K := foldR rnd 0 (w.take (i + 1))

omit hr in
/-- The rounded weight of the negative samples up to position `i`. -/
def fpR (rnd : K → K) (y : List Bool) (w : List K) (i : Nat) : K := rnd (allR rnd w i - tpR rnd y w i)

section
variable {y : List Bool} {w : List K} (hl : w.length = y.length) (hw : ∀ v ∈ w, 0 < v)

omit hr in
include hw in
theorem masked_nonneg : ∀ v ∈ List.zipWith (fun (b : Bool) (v : K) => boolNum b * v) y w, 0 ≤ v := by
  intro v hv
  obtain ⟨i, hi, rfl⟩ := List.getElem_of_mem hv
  rw [List.getElem_zipWith]
  have := hw _ (List.getElem_mem (l := w) (n := i) (by simp at hi; omega))
  cases y[i]'(by simp at hi; omega)
  · simp [boolNum]
  · simpa [boolNum] using this.le

include hw in
theorem tpR_mono {i j : Nat} (h : i ≤ j) : tpR rnd y w i ≤ tpR rnd y w j :=
  foldR_take_mono hr (masked_nonneg hw) (by omega)

include hw in
theorem allR_mono {i j : Nat} (h : i ≤ j) : allR rnd w i ≤ allR rnd w j :=
  foldR_take_mono hr (fun v hv => (hw v hv).le) (by omega)

theorem tpR_rounded (y : List Bool) (w : List K) (i : Nat) : rnd (tpR rnd y w i) = tpR rnd y w i :=
  foldR_rounded hr hr.zero _

theorem allR_rounded (w : List K) (i : Nat) : rnd (allR rnd w i) = allR rnd w i :=
  foldR_rounded hr hr.zero _

theorem fpR_rounded (y : List Bool) (w : List K) (i : Nat) : rnd (fpR rnd y w i) = fpR rnd y w i := hr.idem _

include hw in
theorem tpR_nonneg (i : Nat) : 0 ≤ tpR rnd y w i :=
  foldR_ge hr hr.zero fun v hv => masked_nonneg hw v (List.mem_of_mem_take hv)

omit hr in
include hl hw in
theorem masked_le : List.Forall₂ (· ≤ ·) (List.zipWith (fun (b : Bool) (v : K) => boolNum b * v) y w) w := by
  rw [List.forall₂_iff_get]
  refine ⟨by simp [hl], fun i h1 h2 => ?_⟩
  have h3 : i < y.length := by omega
  have := hw _ (List.getElem_mem h2)
  simp only [List.get_eq_getElem, List.getElem_zipWith]
  cases y[i]
  · simpa [boolNum] using this.le
  · simp [boolNum]

include hl hw in
theorem tpR_le_allR (i : Nat) : tpR rnd y w i ≤ allR rnd w i :=
  foldR_mono hr le_rfl (List.forall₂_take _ (masked_le hl hw))

include hl hw in
theorem fpR_nonneg (i : Nat) : 0 ≤ fpR rnd y w i :=
  hr.nonneg (sub_nonneg.2 (tpR_le_allR hr hl hw i))

include hw in
theorem allR_pos (hne : w ≠ []) (i : Nat) : 0 < allR rnd w i := by
  obtain ⟨a, l, rfl⟩ := List.exists_cons_of_ne_nil hne
  refine foldR_pos hr hr.zero le_rfl (fun v hv => (hw v (List.mem_of_mem_take hv)).le) (v := a) ?_
    (hw a List.mem_cons_self)
  simp

include hl hw in
theorem fpR_or_tpR_pos (hne : w ≠ []) (i : Nat) : 0 < fpR rnd y w i ∨ 0 < tpR rnd y w i := by
  have h1 := allR_pos hr hw hne i
  rcases lt_or_eq_of_le (tpR_le_allR hr hl hw i) with h | h
  · exact Or.inl (hr.pos _ (sub_pos.2 h))
  · exact Or.inr (h ▸ h1)

include hw in
theorem fpR_mono_of_tpR_zero {i j k : Nat} (hij : i ≤ j) (hjk : j ≤ k) (h : tpR rnd y w k = 0) :
    fpR rnd y w i ≤ fpR rnd y w j := by
  have hz : ∀ m, m ≤ k → tpR rnd y w m = 0 := fun m hm =>
    le_antisymm (h ▸ tpR_mono hr hw hm) (tpR_nonneg hr hw m)
  unfold fpR
  rw [hz i (by omega), hz j hjk, sub_zero, sub_zero]
  exact hr.mono (allR_mono hr hw hij)

omit hr in
theorem masked_all_true (hl : w.length = y.length) (hy : ∀ b ∈ y, b = true) :
    List.zipWith (fun (b : Bool) (v : K) => boolNum b * v) y w = w := by
  induction y generalizing w with
  | nil => simp at hl; simp [hl]
  | cons b y ih =>
    obtain ⟨a, w, rfl⟩ := List.exists_cons_of_length_eq_add_one hl
    rw [List.zipWith_cons_cons, hy b List.mem_cons_self, ih (by simpa using hl) fun b hb =>
      hy b (List.mem_cons_of_mem _ hb)]
    simp [boolNum]

omit hr in
theorem tpR_all_true (hl : w.length = y.length) (hy : ∀ b ∈ y, b = true) (i : Nat) :
    tpR rnd y w i = allR rnd w i := by
  unfold tpR allR
  rw [masked_all_true hl hy]

end

omit hr in
theorem foldR_nat (k : Nat) (L : List Nat) (h : ∀ m : Nat, m ≤ k + L.sum → rnd (m : K) = m) :
    foldR rnd (k : K) (L.map fun (m : Nat) => (m : K)) = ((k + L.sum : Nat) : K) := by
  induction L generalizing k with
  | nil => simp [foldR_nil]
  | cons a L ih =>
    rw [List.map_cons, foldR_cons]
    have e : rnd ((k : K) + (a : K)) = ((k + a : Nat) : K) := by
      have := h (k + a) (by simp)
      push_cast at this ⊢
      exact this
    rw [e, ih (k + a) (fun m hm => h m (by simp; omega))]
    simp [add_assoc]

omit hr in
/-- True as 1 and False as 0, as natural numbers. -/
def bit (b : Bool) : Nat := if b then 1 else 0

omit hr in
theorem bit_sum (y : List Bool) : (y.map bit).sum = y.countP fun b => b := by
  induction y with
  | nil => rfl
  | cons b y ih => rw [List.map_cons, List.sum_cons, ih, List.countP_cons]; cases b <;> simp [bit, Nat.add_comm]

omit hr in
theorem masked_ones (y : List Bool) : List.zipWith (fun (b : Bool) (v : K) => boolNum b * v) y
    (List.replicate y.length 1) = (y.map bit).map fun (m : Nat) => (m : K) := by
  induction y with
  | nil => rfl
  | cons b y ih =>
    rw [List.length_cons, List.replicate_succ, List.zipWith_cons_cons, ih]
    cases b <;> simp [bit, boolNum]

omit hr in
theorem tpR_ones {y : List Bool} (hN : ∀ k : Nat, k ≤ y.length → rnd (k : K) = k) (i : Nat) :
    tpR rnd y (List.replicate y.length 1) i = (((y.take (i + 1)).countP fun b => b : Nat) : K) := by
  unfold tpR
  rw [masked_ones, ← List.map_take, ← List.map_take, ← bit_sum]
  have := foldR_nat (rnd := rnd) 0 ((y.take (i + 1)).map bit) (fun m hm => hN m (by
    rw [bit_sum] at hm
    have h1 := List.countP_le_length (p := fun b => b) (l := y.take (i + 1))
    have h2 : (y.take (i + 1)).length ≤ y.length := List.length_take_le' ..
    omega))
  simpa using this

omit hr in
theorem allR_ones {n : Nat} (hN : ∀ k : Nat, k ≤ n → rnd (k : K) = k) {i : Nat} (hi : i < n) :
    allR rnd (List.replicate n 1) i = ((i + 1 : Nat) : K) := by
  unfold allR
  rw [List.take_replicate, min_eq_left (by omega)]
  have := foldR_nat (rnd := rnd) 0 (List.replicate (i + 1) 1) (fun m hm => hN m (by simp at hm; omega))
  simpa using this

omit hr in
theorem fpR_ones {y : List Bool} (hN : ∀ k : Nat, k ≤ y.length → rnd (k : K) = k) {i : Nat} (hi : i < y.length) :
    fpR rnd y (List.replicate y.length 1) i = 1 + (i : K) - tpR rnd y (List.replicate y.length 1) i := by
  unfold fpR
  rw [allR_ones hN hi, tpR_ones hN]
  have h1 : ((y.take (i + 1)).countP fun b => b) ≤ i + 1 := by
    have h1 := List.countP_le_length (p := fun b => b) (l := y.take (i + 1))
    rw [List.length_take] at h1
    omega
  rw [← Nat.cast_sub h1, hN _ (by omega), Nat.cast_sub h1]
  push_cast
  ring

omit hr in
theorem countP_not_add (y : List Bool) : (y.countP fun b => !b) + (y.countP fun b => b) = y.length := by
  induction y with
  | nil => rfl
  | cons b y ih => rw [List.countP_cons, List.countP_cons, List.length_cons]; cases b <;> simp <;> omega

omit hr in
/-- The counts without weights are the rounded counts with weights of one. -/
theorem countsPlain_eq {y : List Bool} (hN : ∀ k : Nat, k ≤ y.length → rnd (k : K) = k) {tidx : List Nat}
    (ht : ∀ i ∈ tidx, i < y.length) (hlast : tidx.getLast? = some (y.length - 1)) :
    countsPlain y tidx = .ok (tidx.map (fpR rnd y (List.replicate y.length 1)),
      tidx.map (tpR rnd y (List.replicate y.length 1))) := by
  have hbl : (y.map boolNum : List K) = (y.map bit).map fun (m : Nat) => (m : K) := by
    rw [List.map_map]
    exact List.map_congr_left fun b _ => by cases b <;> simp [bit, boolNum]
  have e1 : cumsumFrom (0 : K) (y.map boolNum) = cumsumR id 0 (y.map boolNum) := by
    generalize (y.map boolNum : List K) = l
    generalize (0 : K) = a
    induction l generalizing a with
    | nil => rfl
    | cons b l ih => rw [cumsumFrom, cumsumR, ih]; rfl
  have e2 : takeIdx tidx (cumsumFrom (0 : K) (y.map boolNum)) =
      .ok (tidx.map (tpR rnd y (List.replicate y.length 1))) := by
    rw [e1, takeIdx_cumsumR (by simpa using ht)]
    congr 1
    refine List.map_congr_left fun i hi => ?_
    rw [tpR_ones hN, ← tpR_ones (rnd := id) (fun _ _ => rfl)]
    unfold tpR
    rw [masked_ones, hbl]
  have hpos : 0 < y.length := by
    rcases Nat.eq_zero_or_pos y.length with h0 | h0
    · have := ht _ (List.mem_of_getLast? hlast); omega
    · exact h0
  unfold countsPlain
  rw [e2, ok_bind]
  have e3 : List.zipWith (fun (i : Nat) (t : K) => 1 + (i : K) - t) tidx
      (tidx.map (tpR rnd y (List.replicate y.length 1))) = tidx.map (fpR rnd y (List.replicate y.length 1)) := by
    rw [List.zipWith_map_right, List.zipWith_self]
    exact List.map_congr_left fun i hi => (fpR_ones hN (ht i hi)).symm
  simp only [e3, pyAssert_bind]
  have l1 : ∀ g : Nat → K, (tidx.map g).getLastD 0 = g (y.length - 1) := by
    intro g
    rw [List.getLastD_eq_getLast?, List.getLast?_map, hlast]
    rfl
  rw [l1, l1, fpR_ones hN (by omega), tpR_ones hN, List.take_of_length_le (by omega), if_pos]
  · rfl
  · simp only [Bool.and_eq_true, decide_eq_true_eq, and_true]
    have h1 := countP_not_add y
    have h2 : ((y.countP fun b => !b : Nat) : K) + ((y.countP fun b => b : Nat) : K) = (y.length : K) := by
      exact_mod_cast h1
    have h3 : ((y.length - 1 : Nat) : K) = (y.length : K) - 1 := by
      rw [Nat.cast_sub hpos]; simp
    rw [h3, ← h2]; ring

omit hr in
/-- Whether the checks of lines 118 and 119 pass for a row of weights in the order of decreasing score. -/
def closeRow (rnd : K → K) (sumR : List K → K) (y : List Bool) (w : List K) : Bool :=
  allcloseR rnd (fpR rnd y w (y.length - 1)) (sumR (mask (y.map fun b => !b) w)) &&
    allcloseR rnd (tpR rnd y w (y.length - 1)) (sumR (mask y w))

omit hr in
theorem countsWeightedR_eq {sumR : List K → K} {y : List Bool} {idx tidx : List Nat} {w wt : List K}
    (hw : takeIdx idx w = .ok wt) (hl : wt.length = y.length) (ht : ∀ i ∈ tidx, i < y.length)
    (hlast : tidx.getLast? = some (y.length - 1)) :
    countsWeightedR rnd sumR y idx tidx w = if closeRow rnd sumR y wt then
      .ok (tidx.map (fpR rnd y wt), tidx.map (tpR rnd y wt)) else .error .assertion := by
  unfold countsWeightedR
  rw [hw, ok_bind, takeIdx_cumsumR (by simpa [hl] using ht), ok_bind, takeIdx_cumsumR (by simpa [hl] using ht), ok_bind]
  rw [List.zipWith_map, List.zipWith_self]
  have l1 : ∀ g : Nat → K, (tidx.map g).getLastD 0 = g (y.length - 1) := by
    intro g
    rw [List.getLastD_eq_getLast?, List.getLast?_map, hlast]
    rfl
  simp only [pyAssert_bind, l1]
  unfold closeRow fpR tpR allR
  simp only [pure_eq_ok, Bool.and_eq_true]
  split_ifs <;> first | rfl | (exfalso; tauto)

omit hr in
theorem mapM_ite {α β : Type} (l : List α) (c : α → Bool) (g : α → β) (err : PyErr) :
    (l.mapM fun a => if c a then (.ok (g a) : Py β) else .error err) =
      if l.all c then .ok (l.map g) else .error err := by
  induction l with
  | nil => rfl
  | cons a l ih =>
    rw [List.mapM_cons, ih, List.all_cons]
    cases h1 : c a
    · rfl
    · cases h2 : l.all c <;> rfl

theorem diffR_nonzero (ss : List K) : whereNonzero (diffR rnd ss) = whereNonzero (diffK ss) := by
  have hl : (diffR rnd ss).length = (diffK ss).length := by simp [diffR, diffK]
  have e : diffR rnd ss = (diffK ss).map rnd := by
    unfold diffR diffK
    rw [List.map_zipWith]
  unfold whereNonzero
  rw [hl]
  refine List.filter_congr fun i hi => ?_
  rw [List.mem_range] at hi
  simp only [e, List.getD_eq_getElem?_getD, List.getElem?_map, List.getElem?_eq_getElem hi, Option.map_some,
    Option.getD_some, ne_eq, hr.eq_zero_iff]

theorem diffR_nonneg {l : List K} (h : l.Pairwise (· ≤ ·)) :
    ((diffR rnd l).all fun d => decide (0 ≤ d)) = true := by
  have e : diffR rnd l = (diffK l).map rnd := by
    unfold diffR diffK
    rw [List.map_zipWith]
  have := diffK_nonneg h
  rw [e, List.all_eq_true]
  rw [List.all_eq_true] at this
  intro d hd
  obtain ⟨x, hx, rfl⟩ := List.mem_map.1 hd
  have := this x hx
  rw [decide_eq_true_eq] at this ⊢
  exact hr.nonneg this

/-! ## Rows of counts -/

omit hr in
/-- What is known of the rounded counts at the ends of the groups. -/
structure RowOK (rnd : K → K) (f t : List K) : Prop where
  len : f.length = t.length
  ne : t ≠ []
  tmono : t.Pairwise (· ≤ ·)
  tnum : ∀ v ∈ t, 0 ≤ v ∧ rnd v = v
  fnum : ∀ v ∈ f, 0 ≤ v ∧ rnd v = v
  both : ∀ p ∈ f.zip t, 0 < p.1 ∨ 0 < p.2
  fmono : t.getLastD 0 = 0 → f.Pairwise (· ≤ ·)

omit hr in
/-- What is known of the rows after adding pseudo points, before the running maximum. -/
structure RowFin (rnd : K → K) (f t : List K) : Prop where
  fhead : f.head? = some 0
  thead : t.head? = some 0
  len : f.length = t.length
  two : 2 ≤ t.length
  tmono : t.Pairwise (· ≤ ·)
  tnum : ∀ v ∈ t, 0 ≤ v ∧ rnd v = v
  fnum : ∀ v ∈ f, 0 ≤ v ∧ rnd v = v
  tlast : 0 < t.getLastD 0
  flast : 0 < f.getLastD 0

omit hr in
theorem getLastD_mem' {l : List K} (hne : l ≠ []) : l.getLastD 0 ∈ l := by
  rw [List.getLastD_eq_getLast?, List.getLast?_eq_getLast_of_ne_nil hne]
  exact List.getLast_mem hne

omit hr in
theorem getLastD_cons_ne {l : List K} (a : K) (hne : l ≠ []) : (a :: l).getLastD 0 = l.getLastD 0 := by
  rw [List.getLastD_eq_getLast?, List.getLastD_eq_getLast?, List.getLast?_cons, List.getLast?_eq_getLast_of_ne_nil hne]
  rfl

omit hr in
theorem getLastD_map' {l : List K} (hne : l ≠ []) (g : K → K) : (l.map g).getLastD 0 = g (l.getLastD 0) := by
  rw [List.getLastD_eq_getLast?, List.getLastD_eq_getLast?, List.getLast?_map, List.getLast?_eq_getLast_of_ne_nil hne]
  rfl

omit hr in
theorem RowOK.last {f t : List K} (h : RowOK rnd f t) : 0 < f.getLastD 0 ∨ 0 < t.getLastD 0 := by
  have hfne : f ≠ [] := by
    intro e
    have := h.len
    rw [e] at this
    exact h.ne (List.eq_nil_of_length_eq_zero this.symm)
  obtain ⟨f', a, rfl⟩ := (List.eq_nil_or_concat f).resolve_left hfne
  obtain ⟨t', b, rfl⟩ := (List.eq_nil_or_concat t).resolve_left h.ne
  have hl : f'.length = t'.length := by simpa using h.len
  rw [List.concat_eq_append, List.concat_eq_append] at h ⊢
  have := h.both (a, b) (by rw [List.zip_append hl]; simp)
  simpa [List.getLastD_eq_getLast?] using this

theorem epsilonR_pos : 0 < epsilonR rnd := hr.pos _ (by unfold epsilon; positivity)

theorem pseudoRowR_fin {f t : List K} (h : RowOK rnd f t) :
    RowFin rnd (pseudoRowR rnd (0 :: f) (0 :: t)).1 (pseudoRowR rnd (0 :: f) (0 :: t)).2 := by
  have he := epsilonR_pos hr
  have hfne : f ≠ [] := by
    intro e
    have := h.len
    rw [e] at this
    exact h.ne (List.eq_nil_of_length_eq_zero this.symm)
  have hf0 := (h.fnum _ (getLastD_mem' hfne)).1
  have ht0 := (h.tnum _ (getLastD_mem' h.ne)).1
  have h2 : 2 ≤ (0 :: t).length := by
    have := List.length_pos_iff.2 h.ne
    rw [List.length_cons]; omega
  have hmono0 : (0 :: t).Pairwise (· ≤ ·) := List.pairwise_cons.2 ⟨fun v hv => (h.tnum v hv).1, h.tmono⟩
  have htn : ∀ v ∈ (0 : K) :: t, 0 ≤ v ∧ rnd v = v := by
    intro v hv
    rcases List.mem_cons.1 hv with rfl | hv
    · exact ⟨le_rfl, hr.zero⟩
    · exact h.tnum v hv
  have hfn : ∀ v ∈ (0 : K) :: f, 0 ≤ v ∧ rnd v = v := by
    intro v hv
    rcases List.mem_cons.1 hv with rfl | hv
    · exact ⟨le_rfl, hr.zero⟩
    · exact h.fnum v hv
  have hscale : ∀ {l : List K}, (∀ v ∈ l, 0 ≤ v ∧ rnd v = v) →
      ∀ v ∈ l.map (fun (t : K) => rnd (epsilonR rnd * t)), 0 ≤ v ∧ rnd v = v := by
    intro l hl v hv
    obtain ⟨x, hx, rfl⟩ := List.mem_map.1 hv
    exact ⟨hr.nonneg (mul_nonneg he.le (hl x hx).1), hr.idem _⟩
  have hsm : ∀ {l : List K}, l.Pairwise (· ≤ ·) → (l.map fun (t : K) => rnd (epsilonR rnd * t)).Pairwise (· ≤ ·) := by
    intro l hl
    rw [List.pairwise_map]
    exact hl.imp fun hab => hr.mono (mul_le_mul_of_nonneg_left hab he.le)
  unfold pseudoRowR
  simp only [getLastD_cons_ne _ hfne, getLastD_cons_ne _ h.ne, decide_eq_true_eq]
  by_cases c1 : f.getLastD 0 = 0
  · have htl : 0 < t.getLastD 0 := by
      rcases h.last with h' | h'
      · rw [c1] at h'; exact absurd h' (lt_irrefl _)
      · exact h'
    rw [if_pos c1, if_neg htl.ne']
    refine ⟨by simp [hr.zero], by simp, by simp, h2, hmono0, htn, hscale htn, ?_, ?_⟩
    · rw [getLastD_cons_ne _ h.ne]; exact htl
    · rw [getLastD_map' (by simp) (fun (t : K) => rnd (epsilonR rnd * t)), getLastD_cons_ne _ h.ne]
      exact hr.pos _ (mul_pos he htl)
  · rw [if_neg c1]
    have hfl : 0 < f.getLastD 0 := lt_of_le_of_ne hf0 (Ne.symm c1)
    by_cases c2 : t.getLastD 0 = 0
    · rw [if_pos c2]
      have hfm : (0 :: f).Pairwise (· ≤ ·) := List.pairwise_cons.2 ⟨fun v hv => (h.fnum v hv).1, h.fmono c2⟩
      refine ⟨by simp, by simp [hr.zero], by simp, ?_, hsm hfm, hscale hfn, hfn, ?_, ?_⟩
      · rw [List.length_map, List.length_cons, h.len]
        simpa using h2
      · rw [getLastD_map' (by simp) (fun (t : K) => rnd (epsilonR rnd * t)), getLastD_cons_ne _ hfne]
        exact hr.pos _ (mul_pos he hfl)
      · rw [getLastD_cons_ne _ hfne]; exact hfl
    · rw [if_neg c2]
      refine ⟨by simp, by simp, by simp [h.len], h2, hmono0, htn, hfn, ?_, ?_⟩
      · rw [getLastD_cons_ne _ h.ne]
        exact lt_of_le_of_ne ht0 (Ne.symm c2)
      · rw [getLastD_cons_ne _ hfne]; exact hfl

/-! ## The running maximum -/

omit hr in
theorem cummaxFrom_facts (P : K → Prop) (a : K) (l : List K) (ha : P a) (hl : ∀ v ∈ l, P v) :
    (∀ v ∈ cummaxFrom a l, P v) ∧ (a :: cummaxFrom a l).Pairwise (· ≤ ·) ∧ (cummaxFrom a l).length = l.length ∧
      List.Forall₂ (· ≤ ·) l (cummaxFrom a l) := by
  induction l generalizing a with
  | nil => simp [cummaxFrom]
  | cons b l ih =>
    have hp : P (max a b) := by
      rcases max_choice a b with e | e <;> rw [e]
      · exact ha
      · exact hl b List.mem_cons_self
    obtain ⟨i1, i2, i3, i4⟩ := ih (max a b) hp fun v hv => hl v (List.mem_cons_of_mem _ hv)
    refine ⟨?_, ?_, by simp [cummaxFrom, i3], ?_⟩
    · intro v hv
      rcases List.mem_cons.1 hv with rfl | hv
      · exact hp
      · exact i1 v hv
    · rw [cummaxFrom, List.pairwise_cons]
      refine ⟨fun v hv => ?_, i2⟩
      rcases List.mem_cons.1 hv with rfl | hv
      · exact le_max_left _ _
      · exact (le_max_left a b).trans ((List.pairwise_cons.1 i2).1 v hv)
    · exact .cons (le_max_right _ _) i4

omit hr in
theorem cummax_facts (P : K → Prop) {l : List K} (hl : ∀ v ∈ l, P v) :
    (∀ v ∈ cummax l, P v) ∧ (cummax l).Pairwise (· ≤ ·) ∧ (cummax l).length = l.length ∧
      List.Forall₂ (· ≤ ·) l (cummax l) ∧ (cummax l).head? = l.head? := by
  cases l with
  | nil => simp [cummax]
  | cons a l =>
    obtain ⟨i1, i2, i3, i4⟩ := cummaxFrom_facts P a l (hl a List.mem_cons_self) fun v hv =>
      hl v (List.mem_cons_of_mem _ hv)
    refine ⟨?_, i2, by simp [cummax, i3], .cons le_rfl i4, rfl⟩
    intro v hv
    rcases List.mem_cons.1 hv with rfl | hv
    · exact hl v List.mem_cons_self
    · exact i1 v hv

omit hr in
theorem forall₂_last {l l' : List K} (h : List.Forall₂ (· ≤ ·) l l') : l.getLastD 0 ≤ l'.getLastD 0 := by
  rcases List.eq_nil_or_concat l with rfl | ⟨l1, a, rfl⟩
  · cases h; exact le_rfl
  · have hl := h.length_eq
    rcases List.eq_nil_or_concat l' with rfl | ⟨l2, b, rfl⟩
    · simp at hl
    · have hl' : l1.length = l2.length := by simpa using hl
      rw [List.concat_eq_append, List.concat_eq_append] at h ⊢
      obtain ⟨-, h2⟩ := List.forall₂_iff_zip.1 h
      have := @h2 a b (by rw [List.zip_append hl']; simp)
      simpa [List.getLastD_eq_getLast?] using this

omit hr in
/-- What is known of the final rows of counts. -/
structure RowDone (rnd : K → K) (f t : List K) : Prop extends RowFin rnd f t where
  fmono : f.Pairwise (· ≤ ·)

omit hr in
theorem RowFin.done {f t : List K} (h : RowFin rnd f t) : RowDone rnd (cummax f) t := by
  obtain ⟨i1, i2, i3, i4, i5⟩ := cummax_facts (fun v => 0 ≤ v ∧ rnd v = v) h.fnum
  exact { fhead := i5.trans h.fhead, thead := h.thead, len := i3.trans h.len, two := h.two, tmono := h.tmono,
          tnum := h.tnum, fnum := i1, tlast := h.tlast, flast := lt_of_lt_of_le h.flast (forall₂_last i4),
          fmono := i2 }

/-! ## The count curves -/

omit hr in
/-- The rounded false and true positive counts at the ends of the groups of equal scores. -/
def rawRow (rnd : K → K) (y : List Bool) (s w : List K) : List K × List K :=
  ((groupEnds (reorder (descIdx s) s)).map (fpR rnd (reorder (descIdx s) y) (reorder (descIdx s) w)),
    (groupEnds (reorder (descIdx s) s)).map (tpR rnd (reorder (descIdx s) y) (reorder (descIdx s) w)))

omit hr in
/-- The rows of counts after adding pseudo points. -/
def countRow (rnd : K → K) (y : List Bool) (s w : List K) : List K × List K :=
  pseudoRowR rnd (0 :: (rawRow rnd y s w).1) (0 :: (rawRow rnd y s w).2)

omit hr in
/-- Whether the checks of lines 118 and 119 pass; there are none without weights. -/
def closeAll (rnd : K → K) (sumR : List K → K) (y : List Bool) (s : List K) : Option (List (List K)) → Bool
  | none => true
  | some W => W.all fun w => closeRow rnd sumR (reorder (descIdx s) y) (reorder (descIdx s) w)

omit hr in
theorem groupEnds_last {ss : List K} : (groupEnds ss).getLast? = some (ss.length - 1) := by
  simp [groupEnds]

section
variable {y : List Bool} {s : List K} {W : Option (List (List K))} (hin : CurveInput y s W)
include hin

omit hr in
theorem CurveInput.wt_facts {w : List K} (hw : w ∈ weightRows y.length W) :
    (reorder (descIdx s) w).length = (reorder (descIdx s) y).length ∧
      (∀ v ∈ reorder (descIdx s) w, 0 < v) ∧ reorder (descIdx s) w ≠ [] ∧ (reorder (descIdx s) y).length = y.length := by
  have hl := hin.length
  obtain ⟨hwl, hwp⟩ := hin.weights w hw
  have hperm := descIdx_perm s
  have p1 := reorder_perm (l := w) (σ := descIdx s) (by unfold IsPerm; rw [hwl, ← hl]; exact hperm)
  have p2 := reorder_perm (l := y) (σ := descIdx s) (by unfold IsPerm; rw [← hl]; exact hperm)
  refine ⟨by rw [p1.length_eq, p2.length_eq, hwl], fun v hv => hwp v (p1.mem_iff.1 hv), ?_, p2.length_eq⟩
  intro e
  have := p1.length_eq
  rw [e, hwl] at this
  exact hin.nonempty (List.eq_nil_of_length_eq_zero this.symm)

omit hr in
theorem CurveInput.ss_ne : reorder (descIdx s) s ≠ [] := by
  refine reorder_ne_nil ?_
  intro e
  have := hin.length
  rw [e] at this
  exact hin.nonempty (List.eq_nil_of_length_eq_zero this.symm)

theorem rawRow_ok {w : List K} (hw : w ∈ weightRows y.length W) :
    RowOK rnd (rawRow rnd y s w).1 (rawRow rnd y s w).2 := by
  obtain ⟨hl, hp, hne, hyl⟩ := CurveInput.wt_facts hin hw
  have hge := groupEnds_sorted (reorder (descIdx s) s)
  have hlt := groupEnds_lt (CurveInput.ss_ne hin)
  have hss : (reorder (descIdx s) s).length = s.length :=
    (reorder_perm (l := s) (σ := descIdx s) (descIdx_perm s)).length_eq
  have hlast := groupEnds_last (ss := reorder (descIdx s) s)
  unfold rawRow
  refine ⟨by simp, ?_, ?_, ?_, ?_, ?_, ?_⟩
  · simp only [ne_eq, List.map_eq_nil_iff]
    intro e; rw [e] at hlast; simp at hlast
  · rw [List.pairwise_map]
    exact hge.imp fun h => tpR_mono hr hp h.le
  · intro v hv
    obtain ⟨i, -, rfl⟩ := List.mem_map.1 hv
    exact ⟨tpR_nonneg hr hp i, tpR_rounded hr _ _ i⟩
  · intro v hv
    obtain ⟨i, -, rfl⟩ := List.mem_map.1 hv
    exact ⟨fpR_nonneg hr hl hp i, fpR_rounded hr _ _ i⟩
  · intro p hpm
    rw [List.zip_map', List.mem_map] at hpm
    obtain ⟨i, -, rfl⟩ := hpm
    exact fpR_or_tpR_pos hr hl hp hne i
  · intro h0
    rw [List.getLastD_eq_getLast?, List.getLast?_map, hlast] at h0
    rw [List.pairwise_map]
    refine List.Pairwise.imp_of_mem ?_ hge
    intro i j _ hj hij
    refine fpR_mono_of_tpR_zero hr hp hij.le ?_ h0
    have := hlt j hj
    omega

theorem countRow_fin {w : List K} (hw : w ∈ weightRows y.length W) :
    RowFin rnd (countRow rnd y s w).1 (countRow rnd y s w).2 :=
  pseudoRowR_fin hr (rawRow_ok hr hin hw)

omit hr in
theorem countsOfR_eq {sumR : List K → K} (hN : W = none → ∀ k : Nat, k ≤ y.length → rnd (k : K) = k) :
    countsOfR rnd sumR (reorder (descIdx s) y) (descIdx s) (groupEnds (reorder (descIdx s) s))
      (W.map (finMat y.length)) =
      if closeAll rnd sumR y s W then .ok ((weightRows y.length W).map fun w => rawRow rnd y s w)
        else .error .assertion := by
  have hlt := groupEnds_lt (CurveInput.ss_ne hin)
  have hss : (reorder (descIdx s) s).length = s.length :=
    (reorder_perm (l := s) (σ := descIdx s) (descIdx_perm s)).length_eq
  have hlast := groupEnds_last (ss := reorder (descIdx s) s)
  have hylen : (reorder (descIdx s) y).length = y.length :=
    (reorder_perm (l := y) (σ := descIdx s) (by unfold IsPerm; rw [← hin.length]; exact descIdx_perm s)).length_eq
  have hlt' : ∀ i ∈ groupEnds (reorder (descIdx s) s), i < (reorder (descIdx s) y).length := by
    intro i hi
    rw [hylen, ← hin.length, ← hss]; exact hlt i hi
  have hlast' : (groupEnds (reorder (descIdx s) s)).getLast? = some ((reorder (descIdx s) y).length - 1) := by
    rw [hlast, hylen, hss, hin.length]
  cases W with
  | none =>
    have hrep : reorder (descIdx s) (List.replicate y.length (1 : K)) = List.replicate y.length 1 := by
      have hp := reorder_perm (l := List.replicate y.length (1 : K)) (σ := descIdx s) (by
        unfold IsPerm; rw [List.length_replicate, ← hin.length]; exact descIdx_perm s)
      exact List.perm_replicate.1 hp
    simp only [Option.map_none, countsOfR, closeAll, if_true]
    rw [countsPlain_eq (rnd := rnd) (by rw [hylen]; exact hN rfl) hlt' hlast', ok_bind]
    simp only [weightRows, Option.getD_none, List.map_cons, List.map_nil, rawRow, hrep, hylen]
    rfl
  | some W =>
    simp only [Option.map_some, countsOfR]
    have hrows : W ≠ [] := hin.rows
    have hw := hin.weights
    have a1 : decide ((finMat y.length W).ncols = (reorder (descIdx s) y).length) = true := by
      rw [decide_eq_true_eq, hylen]; rfl
    have a2 : decide (1 ≤ (finMat y.length W).rows.length) = true := by
      have := List.length_pos_iff.2 hrows
      simp [finMat]; omega
    have a3 : ((finMat y.length W).rows.all fun r => r.all fun v => v.isFinite) = true := by
      rw [List.all_eq_true]
      intro r hr
      obtain ⟨w, -, rfl⟩ := List.mem_map.1 hr
      rw [List.all_eq_true]
      intro v hv
      obtain ⟨x, -, rfl⟩ := List.mem_map.1 hv
      rfl
    have a4 : ((finMat y.length W).rows.all fun r => r.all fun v => (Flt.fin 0).lt v) = true := by
      rw [List.all_eq_true]
      intro r hr
      obtain ⟨w, hwm, rfl⟩ := List.mem_map.1 hr
      rw [List.all_eq_true]
      intro v hv
      obtain ⟨x, hx, rfl⟩ := List.mem_map.1 hv
      rw [Flt.lt_iff, Flt.fin_lt_fin]
      exact ⟨by simp, (hw w hwm).2 x hx⟩
    simp only [pyAssert_bind, a1, a2, a3, a4, if_true]
    show (W.map finVec).mapM _ = if (W.all _) then Except.ok (W.map _) else _
    rw [List.mapM_map, ← mapM_ite]
    refine mapM_congr _ _ _ fun w hwm => ?_
    have hfinw : (finVec w).filterMap finPart = w := by
      unfold finVec
      rw [List.filterMap_map]
      exact List.filterMap_some
    simp only [Function.comp, hfinw]
    refine countsWeightedR_eq (takeIdx_reorder ?_) (CurveInput.wt_facts hin hwm).1 hlt' hlast'
    intro i hi
    rw [(hw w hwm).1, ← hin.length]
    exact List.mem_range.1 ((descIdx_perm s).mem_iff.1 hi)

/-- For valid input the count curves fail only in the checks of lines 118 and 119. -/
theorem clfR_eq {sumR : List K → K} (hN : W = none → ∀ k : Nat, k ≤ y.length → rnd (k : K) = k) :
    binaryClfCurveR rnd sumR y (finVec s) (W.map (finMat y.length)) =
      if closeAll rnd sumR y s W then
        .ok ((weightRows y.length W).map (fun w => cummax (countRow rnd y s w).1),
          (weightRows y.length W).map (fun w => (countRow rnd y s w).2), thresholdsOf s)
      else .error .assertion := by
  have hl := hin.length
  have hsne : s ≠ [] := by
    intro e; rw [e] at hl; exact hin.nonempty (List.eq_nil_of_length_eq_zero hl.symm)
  have hypos := List.length_pos_iff.2 hin.nonempty
  have hperm := descIdx_perm s
  have hidx : ∀ i ∈ descIdx s, i < s.length := fun i hi => List.mem_range.1 (hperm.mem_iff.1 hi)
  have hidx' : ∀ i ∈ descIdx s, i < y.length := fun i hi => hl ▸ hidx i hi
  have hss : takeIdx (descIdx s) s = .ok (reorder (descIdx s) s) := takeIdx_reorder hidx
  have hy : takeIdx (descIdx s) y = .ok (reorder (descIdx s) y) := takeIdx_reorder hidx'
  have hfin : (finVec s).filterMap finPart = s := by
    unfold finVec
    rw [List.filterMap_map]
    exact List.filterMap_some
  have hallfin : ((finVec s).all fun v => v.isFinite) = true := by
    rw [List.all_eq_true]
    intro v hv
    obtain ⟨x, -, rfl⟩ := List.mem_map.1 hv
    rfl
  have hlen : (finVec s).length = y.length := by rw [← hl]; simp [finVec]
  have hslen : (reorder (descIdx s) s).length = y.length := by rw [(reorder_perm hperm).length_eq, hl]
  have hends : whereNonzero (diffR rnd (reorder (descIdx s) s)) ++ [y.length - 1] =
      groupEnds (reorder (descIdx s) s) := by rw [diffR_nonzero hr, groupEnds, hslen]
  have hst : takeIdx (groupEnds (reorder (descIdx s) s)) (reorder (descIdx s) s) =
      .ok (groupScores (reorder (descIdx s) s)) :=
    takeIdx_reorder (groupEnds_lt (reorder_ne_nil hsne))
  unfold binaryClfCurveR
  simp only [pyAssert_bind]
  rw [if_pos (by rw [hlen, hallfin]; simp), if_pos (by rw [decide_eq_true_eq]; omega), hfin]
  rw [show (argsortStable s).reverse = descIdx s from rfl, hss, ok_bind, hy, ok_bind, hends,
    countsOfR_eq hin hN]
  by_cases hc : closeAll rnd sumR y s W = true
  · rw [if_pos hc, if_pos hc, ok_bind, hst, ok_bind]
    rw [if_pos (by
      have : groupScores (reorder (descIdx s) s) ≠ [] := by
        intro e
        obtain ⟨v, hv⟩ := List.exists_mem_of_ne_nil _ (reorder_ne_nil hsne)
        have := (groupScores_mem (reorder_ne_nil hsne) v).2 hv
        rw [e] at this; simp at this
      have := List.length_pos_iff.2 this
      simp; omega)]
    have hp : addPseudoPointsR rnd (((weightRows y.length W).map fun w => rawRow rnd y s w).map fun c => 0 :: c.1)
        (((weightRows y.length W).map fun w => rawRow rnd y s w).map fun c => 0 :: c.2) =
        .ok ((weightRows y.length W).map (fun w => (countRow rnd y s w).1),
          (weightRows y.length W).map (fun w => (countRow rnd y s w).2)) := by
      unfold addPseudoPointsR
      simp only [pyAssert_bind]
      rw [if_pos, if_pos]
      · simp only [pure_eq_ok, List.map_map, List.zipWith_map, List.zipWith_self]
        rfl
      · simp only [List.length_map, Bool.and_eq_true, decide_eq_true_eq, List.all_eq_true, List.map_map,
          List.mem_map]
        refine ⟨List.length_pos_iff.2 hin.rows, ?_⟩
        rintro r ⟨w, -, rfl⟩
        simp
      · simp only [List.length_map, Bool.and_eq_true, decide_eq_true_eq, List.all_eq_true, List.map_map,
          List.zip_map', List.mem_map, true_and]
        rintro p ⟨w, hw, rfl⟩
        simp [rawRow]
    rw [hp, ok_bind]
    have hfin : ∀ w ∈ weightRows y.length W, _ := fun w hw => countRow_fin hr hin (w := w) hw
    rw [if_pos, if_pos]
    · simp only [pure_eq_ok, List.map_map]
      rfl
    · simp only [Bool.and_eq_true, List.all_eq_true, List.map_map, List.mem_map]
      constructor
      · rintro r ⟨w, hw, rfl⟩
        exact List.all_eq_true.1 (diffR_nonneg hr (hfin w hw).done.fmono)
      · rintro r ⟨w, hw, rfl⟩
        exact List.all_eq_true.1 (diffR_nonneg hr (hfin w hw).tmono)
    · simp only [Bool.and_eq_true, List.all_eq_true, List.mem_map, decide_eq_true_eq]
      constructor
      · rintro r ⟨w, hw, rfl⟩
        exact (hfin w hw).flast
      · rintro r ⟨w, hw, rfl⟩
        exact (hfin w hw).tlast
  · rw [if_neg hc, if_neg hc]
    rfl

end

end
end Mlp.Lemmas
