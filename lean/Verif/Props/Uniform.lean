import Verif.Props.RandomSplit
import Verif.Spec.Uniform
import Mathlib.Logic.Equiv.Fintype
import Mathlib.Data.Finset.Powerset
import Mathlib.Algebra.BigOperators.Ring.Finset
import Mathlib.Data.Fintype.BigOperators
import Mathlib.Data.Fintype.Fin
import Mathlib.Algebra.Group.Action.Defs
import Mathlib.Algebra.Module.NatInt
import Mathlib.Combinatorics.Enumerative.DoubleCounting
import Mathlib.Data.Fintype.CardEmbedding

/-! # C97: random splits are fair -/

set_option linter.unusedSectionVars false

namespace Mlp.Props
open Mlp Mlp.Splitter Mlp.Spec Mlp.Lemmas

theorem shuffle_isPerm {n : ℕ} (σ : Equiv.Perm (Fin n)) : IsPerm (shuffle σ) n := by
  unfold IsPerm shuffle
  have h : (List.ofFn fun i => (σ i : ℕ)).Nodup := by
    rw [List.nodup_ofFn]
    exact fun a b e => σ.injective (Fin.ext e)
  refine (List.perm_ext_iff_of_nodup h List.nodup_range).2 fun i => ?_
  rw [List.mem_ofFn', List.mem_range]
  constructor
  · rintro ⟨j, rfl⟩; exact (σ j).2
  · intro hi; exact ⟨σ.symm ⟨i, hi⟩, by simp⟩

/-- The set of the first `N` in the order `σ`. -/
def firstN {n : ℕ} (N : ℕ) (σ : Equiv.Perm (Fin n)) : Finset (Fin n) :=
  (Finset.univ.filter fun i : Fin n => (i : ℕ) < N).image σ

theorem card_firstN {n N : ℕ} (h : N ≤ n) (σ : Equiv.Perm (Fin n)) : (firstN N σ).card = N := by
  unfold firstN
  rw [Finset.card_image_of_injective _ σ.injective]
  rw [Fin.card_filter_val_lt, min_eq_right h]

theorem mem_firstN {n N : ℕ} (σ : Equiv.Perm (Fin n)) (v : Fin n) : v ∈ firstN N σ ↔ (v : ℕ) ∈ (shuffle σ).take N := by
  unfold firstN shuffle
  rw [List.mem_take_iff_getElem]
  simp only [Finset.mem_image, Finset.mem_filter, Finset.mem_univ, true_and, List.length_ofFn, List.getElem_ofFn]
  constructor
  · rintro ⟨i, hi, rfl⟩; exact ⟨i, by omega, rfl⟩
  · rintro ⟨i, hi, e⟩; exact ⟨⟨i, by omega⟩, by simp; omega, Fin.ext e⟩

theorem firstN_mul {n N : ℕ} (τ σ : Equiv.Perm (Fin n)) : firstN N (τ * σ) = (firstN N σ).image τ := by
  unfold firstN
  rw [Finset.image_image]
  rfl

/-- A permutation that carries a set to another of the same size. -/
theorem exists_perm_image {n : ℕ} {A B : Finset (Fin n)} (h : A.card = B.card) : ∃ τ : Equiv.Perm (Fin n), A.image τ = B := by
  let e : {x // x ∈ A} ≃ {x // x ∈ B} := Finset.equivOfCardEq h
  refine ⟨e.extendSubtype, Finset.eq_of_subset_of_card_le (fun y hy => ?_) ?_⟩
  · obtain ⟨x, hx, rfl⟩ := Finset.mem_image.1 hy
    exact e.extendSubtype_mem x hx
  · rw [Finset.card_image_of_injective _ (Equiv.injective _), h]

theorem count_set {n N : ℕ} (h : N ≤ n) {A : Finset (Fin n)} (hA : A.card = N) :
    (Finset.univ.filter fun σ : Equiv.Perm (Fin n) => firstN N σ = A).card * n.choose N = 1 * n.factorial := by
  have hsym : ∀ B ∈ Finset.powersetCard N (Finset.univ : Finset (Fin n)),
      (Finset.univ.filter fun σ : Equiv.Perm (Fin n) => firstN N σ = B).card =
        (Finset.univ.filter fun σ : Equiv.Perm (Fin n) => firstN N σ = A).card := by
    intro B hB
    obtain ⟨τ, hτ⟩ := exists_perm_image ((Finset.mem_powersetCard.1 hB).2.trans hA.symm)
    refine Finset.card_bij (fun σ _ => τ * σ) ?_ ?_ ?_
    · intro σ hσ
      simp only [Finset.mem_filter, Finset.mem_univ, true_and] at hσ ⊢
      rw [firstN_mul, hσ, hτ]
    · intro σ _ σ' _ e; exact mul_left_cancel e
    · intro σ hσ
      simp only [Finset.mem_filter, Finset.mem_univ, true_and] at hσ
      refine ⟨τ⁻¹ * σ, ?_, by simp⟩
      simp only [Finset.mem_filter, Finset.mem_univ, true_and]
      rw [firstN_mul, hσ, ← hτ, Finset.image_image]
      simp
  have htot := Finset.card_eq_sum_card_fiberwise (f := firstN N) (s := (Finset.univ : Finset (Equiv.Perm (Fin n))))
    (t := Finset.powersetCard N Finset.univ) (fun σ _ => by
      simp [card_firstN h])
  rw [Finset.sum_congr rfl hsym, Finset.sum_const, Finset.card_powersetCard, Finset.card_univ, Finset.card_univ,
    Fintype.card_perm, Fintype.card_fin, smul_eq_mul] at htot
  rw [htot]; ring

theorem count_mem {n N : ℕ} (h : N ≤ n) (v : Fin n) :
    (Finset.univ.filter fun σ : Equiv.Perm (Fin n) => v ∈ firstN N σ).card * n = N * n.factorial := by
  have hsym : ∀ w ∈ (Finset.univ : Finset (Fin n)), (Finset.univ.filter fun σ : Equiv.Perm (Fin n) => w ∈ firstN N σ).card =
        (Finset.univ.filter fun σ : Equiv.Perm (Fin n) => v ∈ firstN N σ).card := by
    intro w _
    refine Finset.card_bij (fun σ _ => Equiv.swap w v * σ) ?_ ?_ ?_
    · intro σ hσ
      simp only [Finset.mem_filter, Finset.mem_univ, true_and] at hσ ⊢
      rw [firstN_mul]
      exact Finset.mem_image.2 ⟨w, hσ, by simp⟩
    · intro σ _ σ' _ e; exact mul_left_cancel e
    · intro σ hσ
      simp only [Finset.mem_filter, Finset.mem_univ, true_and] at hσ
      refine ⟨Equiv.swap w v * σ, ?_, by rw [← mul_assoc]; simp⟩
      simp only [Finset.mem_filter, Finset.mem_univ, true_and]
      rw [firstN_mul]
      exact Finset.mem_image.2 ⟨v, hσ, by simp⟩
  have hdc := Finset.sum_card_bipartiteAbove_eq_sum_card_bipartiteBelow
    (s := (Finset.univ : Finset (Fin n))) (t := (Finset.univ : Finset (Equiv.Perm (Fin n)))) fun w σ => w ∈ firstN N σ
  unfold Finset.bipartiteAbove Finset.bipartiteBelow at hdc
  rw [Finset.sum_congr rfl hsym, Finset.sum_const, Finset.card_univ, Fintype.card_fin, smul_eq_mul] at hdc
  have h2 : ∀ σ ∈ (Finset.univ : Finset (Equiv.Perm (Fin n))), (Finset.univ.filter fun w => w ∈ firstN N σ).card = N := by
    intro σ _
    rw [Finset.filter_mem_eq_inter, Finset.univ_inter, card_firstN h]
  rw [Finset.sum_congr rfl h2, Finset.sum_const, Finset.card_univ, Fintype.card_perm, Fintype.card_fin, smul_eq_mul] at hdc
  rw [mul_comm, hdc, mul_comm]

/-- The first `N` of the order `σ`, in order. -/
def firstList {n N : ℕ} (h : N ≤ n) (σ : Equiv.Perm (Fin n)) : Fin N ↪ Fin n :=
  (Fin.castLEEmb h).trans σ.toEmbedding

theorem exists_perm_emb {n N : ℕ} (f g : Fin N ↪ Fin n) : ∃ τ : Equiv.Perm (Fin n), ∀ i, τ (f i) = g i := by
  let e : {x // x ∈ Set.range f} ≃ {x // x ∈ Set.range g} :=
    (Equiv.ofInjective f f.injective).symm.trans (Equiv.ofInjective g g.injective)
  classical
  refine ⟨e.extendSubtype, fun i => ?_⟩
  rw [e.extendSubtype_apply_of_mem (f i) ⟨i, rfl⟩]
  show ((Equiv.ofInjective g g.injective) ((Equiv.ofInjective f f.injective).symm ⟨f i, ⟨i, rfl⟩⟩) : Fin n) = g i
  rw [Equiv.ofInjective_symm_apply f.injective i]
  rfl

theorem count_list {n N : ℕ} (h : N ≤ n) (f : Fin N ↪ Fin n) :
    (Finset.univ.filter fun σ : Equiv.Perm (Fin n) => firstList h σ = f).card * n.descFactorial N = 1 * n.factorial := by
  classical
  have hmul : ∀ τ σ : Equiv.Perm (Fin n), ∀ i, firstList h (τ * σ) i = τ (firstList h σ i) := fun τ σ i => rfl
  have hsym : ∀ g ∈ (Finset.univ : Finset (Fin N ↪ Fin n)),
      (Finset.univ.filter fun σ : Equiv.Perm (Fin n) => firstList h σ = g).card =
        (Finset.univ.filter fun σ : Equiv.Perm (Fin n) => firstList h σ = f).card := by
    intro g _
    obtain ⟨τ, hτ⟩ := exists_perm_emb g f
    refine Finset.card_bij (fun σ _ => τ * σ) ?_ ?_ ?_
    · intro σ hσ
      simp only [Finset.mem_filter, Finset.mem_univ, true_and] at hσ ⊢
      ext i
      rw [hmul, hσ, hτ]
    · intro σ _ σ' _ e; exact mul_left_cancel e
    · intro σ hσ
      simp only [Finset.mem_filter, Finset.mem_univ, true_and] at hσ
      refine ⟨τ⁻¹ * σ, ?_, by simp⟩
      simp only [Finset.mem_filter, Finset.mem_univ, true_and]
      ext i
      rw [hmul, hσ, ← hτ]
      simp
  have htot := Finset.card_eq_sum_card_fiberwise (f := firstList h) (s := (Finset.univ : Finset (Equiv.Perm (Fin n))))
    (t := Finset.univ) (fun σ _ => by simp)
  rw [Finset.sum_congr rfl hsym, Finset.sum_const, Finset.card_univ, Finset.card_univ,
    Fintype.card_perm, Fintype.card_fin, Fintype.card_embedding_eq, Fintype.card_fin, Fintype.card_fin, smul_eq_mul] at htot
  rw [htot]; ring

section
variable {K : Type} [Field K] [LinearOrder K] [IsStrictOrderedRing K] [FloorRing K]

/-- **C97, `rand_subset`.** Every arrangement of `N = ceil(frac * n)` of the `n` different elements is the result with the
same probability `1 / (n * (n - 1) * ... * (n - N + 1))`. -/
theorem C97_rand_subset {β : Type} {rnd : K → K} (h : IsRounding rnd) {x : List β} (hx : x ≠ []) (hd : x.Nodup)
    {frac : K} (h0 : 0 ≤ frac) (h1 : frac ≤ 1) {n : ℕ} (hn : n = x.length) {r : List β} (hr : r.Nodup)
    (hrx : ∀ v ∈ r, v ∈ x) (hN : (r.length : Int) = ⌈rnd (frac * n)⌉) :
    HasProb n (fun σ => randSubset rnd (fun _ => shuffle σ) x frac = .ok r) 1 (n.descFactorial r.length) := by
  have hb := h.ceil_nat h0 h1 n
  rw [← hN, Int.toNat_natCast] at hb
  have hNn := hb.2
  have hpos : ∀ i : Fin r.length, ∃ k : Fin n, x[(k : ℕ)]? = some r[i] := by
    intro i
    obtain ⟨k, hk, e⟩ := List.mem_iff_getElem.1 (hrx r[i] (List.getElem_mem _))
    exact ⟨⟨k, by omega⟩, by rw [List.getElem?_eq_getElem hk, e]⟩
  choose f hf using hpos
  have hinj : Function.Injective f := by
    intro i j e
    have := hf i
    rw [e, hf j, Option.some.injEq] at this
    exact Fin.ext ((List.Nodup.getElem_inj_iff hr).1 this.symm)
  refine ⟨Finset.univ.filter fun σ => firstList hNn σ = ⟨f, hinj⟩, fun σ => ?_, count_list hNn _,
    Nat.descFactorial_pos.2 hNn⟩
  have hs := randSubset_ok h hx (perm := fun _ => shuffle σ) (by rw [← hn]; exact shuffle_isPerm σ) h0 h1
  rw [← hn, ← hN, Int.toNat_natCast] at hs
  have hfa := forall₂_filterMap_get x ((shuffle σ).take r.length) (fun i hi => by
    rw [← hn]; exact (perm_take_facts (shuffle_isPerm σ) hNn).2.1 i hi)
  have hlen := hfa.length_eq
  have hlt : ((shuffle σ).take r.length).length = r.length := (perm_take_facts (shuffle_isPerm σ) hNn).2.2
  have hget : ∀ i (hi : i < r.length), ((shuffle σ).take r.length)[i]? = some (firstList hNn σ ⟨i, hi⟩ : ℕ) := by
    intro i hi
    rw [List.getElem?_take_of_lt hi]
    unfold shuffle
    rw [List.getElem?_ofFn]
    simp only [dif_pos (show i < n by omega)]
    rfl
  simp only [Finset.mem_filter, Finset.mem_univ, true_and]
  rw [hs, Except.ok.injEq]
  constructor
  · intro e
    apply List.ext_getElem (by omega)
    intro i hi hi2
    have := List.Forall₂.get hfa (show i < ((shuffle σ).take r.length).length by omega) hi
    have hg := hget i hi2
    rw [List.getElem?_eq_getElem (by omega), Option.some.injEq] at hg
    simp only [List.get_eq_getElem] at this
    rw [hg, e] at this
    have hh := (hf ⟨i, hi2⟩).symm.trans this
    simpa using hh.symm
  · intro e
    ext i : 1
    have := List.Forall₂.get hfa (show (i : ℕ) < ((shuffle σ).take r.length).length by omega) (by rw [e]; exact i.2)
    have hg := hget i i.2
    rw [List.getElem?_eq_getElem (by omega), Option.some.injEq] at hg
    simp only [List.get_eq_getElem, e] at this
    rw [hg] at this
    have hfi := hf i
    have ha : ((f i : Fin n) : ℕ) < x.length := by have := (f i).2; omega
    have hc : ((firstList hNn σ i : Fin n) : ℕ) < x.length := by have := (firstList hNn σ i).2; omega
    rw [List.getElem?_eq_getElem ha] at hfi
    rw [show (⟨(i : ℕ), i.2⟩ : Fin r.length) = i from rfl, List.getElem?_eq_getElem hc] at this
    rw [Option.some.injEq] at hfi this
    exact Fin.ext ((List.Nodup.getElem_inj_iff hd).1 (this.trans hfi.symm))

/-- **C97, `rand_mask`.** Every mask of the right length with `N = ceil(frac * n)` times True has the same probability
`1 / (n choose N)`. -/
theorem C97_rand_mask {rnd : K → K} (h : IsRounding rnd) {n : ℕ} (hn : 0 < n) {frac : K} (h0 : 0 ≤ frac) (h1 : frac ≤ 1)
    {N : ℕ} (hN : (N : Int) = ⌈rnd (frac * n)⌉) {mask : List Bool} (hm : mask.length = n) (hc : mask.count true = N) :
    HasProb n (fun σ => randMask rnd (fun _ => shuffle σ) n frac = .ok mask) 1 (n.choose N) := by
  have hNn : N ≤ n := by rw [← hc, ← hm]; exact List.count_le_length
  have hres : ∀ σ : Equiv.Perm (Fin n), randMask rnd (fun _ => shuffle σ) n frac =
      .ok ((List.range n).map fun i => decide (i ∈ (shuffle σ).take N)) := by
    intro σ
    rw [randMask_ok h hn (perm := fun _ => shuffle σ) (shuffle_isPerm σ) h0 h1, ← hN]
    rfl
  set A : Finset (Fin n) := Finset.univ.filter fun i => mask[(i : ℕ)]? = some true with hA
  have hiff : ∀ σ : Equiv.Perm (Fin n), randMask rnd (fun _ => shuffle σ) n frac = .ok mask ↔ firstN N σ = A := by
    intro σ
    rw [hres σ, Except.ok.injEq]
    constructor
    · rintro rfl
      ext v
      rw [mem_firstN, hA]
      simp [List.getElem?_range v.2]
    · intro e
      apply List.ext_getElem?
      intro i
      rw [List.getElem?_map]
      by_cases hi : i < n
      · rw [List.getElem?_range hi, List.getElem?_eq_getElem (by omega)]
        have := mem_firstN (N := N) σ ⟨i, hi⟩
        rw [e, hA] at this
        simp only [Finset.mem_filter, Finset.mem_univ, true_and] at this
        rw [List.getElem?_eq_getElem (by omega)] at this
        simp only [Option.map_some, Option.some.injEq, decide_eq_decide] at this ⊢
        rw [← Bool.coe_iff_coe]
        simp [← this]
      · rw [List.getElem?_eq_none (by simpa using hi), List.getElem?_eq_none (by omega)]
        rfl
  have hAc : A.card = N := by
    have e : mask = (List.range n).map fun i => decide (i ∈ (A.image fun i : Fin n => (i : ℕ)).toList) := by
      apply List.ext_getElem?
      intro i
      rw [List.getElem?_map]
      by_cases hi : i < n
      · rw [List.getElem?_range hi, List.getElem?_eq_getElem (by omega)]
        simp only [Option.map_some, Option.some.injEq, Finset.mem_toList, Finset.mem_image]
        rw [← Bool.coe_iff_coe, decide_eq_true_eq]
        constructor
        · intro ht
          exact ⟨⟨i, hi⟩, by simp [hA, List.getElem?_eq_getElem (show i < mask.length by omega), ht], rfl⟩
        · rintro ⟨j, hj, rfl⟩
          simpa [hA, List.getElem?_eq_getElem (show (j : ℕ) < mask.length by omega)] using hj
      · rw [List.getElem?_eq_none (by omega), List.getElem?_eq_none (by simpa using hi)]
        rfl
    rw [e, count_mask (Finset.nodup_toList _) (by simp), Finset.length_toList,
      Finset.card_image_of_injective _ Fin.val_injective] at hc
    exact hc
  refine ⟨Finset.univ.filter fun σ => firstN N σ = A, fun σ => ?_, count_set hNn hAc, Nat.choose_pos hNn⟩
  rw [Finset.mem_filter]
  show _ ↔ randMask rnd (fun _ => shuffle σ) n frac = .ok mask
  rw [hiff σ]
  simp

theorem split_shuffle {α : Type} [DecidableEq α] {rnd : K → K} (h : IsRounding rnd) {vals : List α} (hv : vals ≠ [])
    {frac : K} (h0 : 0 ≤ frac) (h1 : frac ≤ 1) {u N : ℕ} (hu : u = vals.toFinset.card)
    (hN : (N : Int) = ⌈rnd (frac * u)⌉) :
    ∃ x : Fin u → α, Function.Injective x ∧ (∀ v, v ∈ vals ↔ ∃ k, x k = v) ∧ N ≤ u ∧
      ∀ σ : Equiv.Perm (Fin u), ∃ mask, randomSplit rnd (fun _ => shuffle σ) (noNull vals) frac false = .ok mask ∧
        mask.length = vals.length ∧
        ∀ i (hi : i < vals.length), ∀ k, x k = vals[i] → (mask[i]? = some true ↔ k ∈ firstN N σ) := by
  have hlen : (uniqueFirst vals).length = u := (uniqueFirst_length vals).trans hu.symm
  have hne : uniqueFirst vals ≠ [] := by
    intro e
    obtain ⟨a, ha⟩ := List.exists_mem_of_ne_nil _ hv
    rw [← mem_uniqueFirst, e] at ha
    simp at ha
  have hb := h.ceil_nat h0 h1 u
  rw [← hN] at hb
  have hinj : Function.Injective fun k : Fin u => (uniqueFirst vals)[(k : ℕ)]'(by omega) := by
    intro a b e
    exact Fin.ext ((List.Nodup.getElem_inj_iff (nodup_uniqueFirst vals)).1 e)
  refine ⟨fun k => (uniqueFirst vals)[(k : ℕ)]'(by omega), hinj, fun v => ?_, by simpa using hb.2, fun σ => ?_⟩
  · rw [← mem_uniqueFirst, List.mem_iff_getElem]
    constructor
    · rintro ⟨k, hk, e⟩; exact ⟨⟨k, by omega⟩, e⟩
    · rintro ⟨k, e⟩; exact ⟨k, by omega, e⟩
  · have hr := randSubset_ok h hne (perm := fun _ => shuffle σ) (by rw [hlen]; exact shuffle_isPerm σ) h0 h1
    rw [hlen, ← hN, Int.toNat_natCast] at hr
    refine ⟨_, by
      unfold randomSplit
      rw [noNull_any, noNull_filterMap]
      simp only [Bool.false_eq_true, if_false]
      rw [hr]
      rfl, by simp, fun i hi k hk => ?_⟩
    rw [List.getElem?_map, List.getElem?_eq_getElem hi, Option.map_some, Option.some.injEq, decide_eq_true_eq,
      mem_filterMap_get, mem_firstN, ← hk]
    constructor
    · rintro ⟨j, hj, e⟩
      obtain ⟨hj2, e⟩ := List.getElem?_eq_some_iff.1 e
      rw [List.Nodup.getElem_inj_iff (nodup_uniqueFirst vals)] at e
      rwa [← e]
    · intro hk2
      exact ⟨k, hk2, List.getElem?_eq_getElem _⟩

/-- **C97, `random_split_series`.** Every set of `N = ceil(frac * u)` of the `u` distinct values is the set of training
values with the same probability `1 / (u choose N)`. -/
theorem C97_random_split {α : Type} [DecidableEq α] {rnd : K → K} (h : IsRounding rnd) {vals : List α} (hv : vals ≠ [])
    {frac : K} (h0 : 0 ≤ frac) (h1 : frac ≤ 1) {u N : ℕ} (hu : u = vals.toFinset.card)
    (hN : (N : Int) = ⌈rnd (frac * u)⌉) {T : Finset α} (hT : T ⊆ vals.toFinset) (hc : T.card = N) :
    HasProb u (fun σ => randomSplit rnd (fun _ => shuffle σ) (noNull vals) frac false =
      .ok (vals.map fun v => decide (v ∈ T))) 1 (u.choose N) := by
  obtain ⟨x, hinj, hx, hNu, hs⟩ := split_shuffle h hv h0 h1 hu hN
  set A : Finset (Fin u) := Finset.univ.filter fun k => x k ∈ T with hA
  have hAc : A.card = N := by
    rw [← hc, ← Finset.card_image_of_injective A hinj]
    congr 1
    ext v
    simp only [hA, Finset.mem_image, Finset.mem_filter, Finset.mem_univ, true_and]
    constructor
    · rintro ⟨k, hk, rfl⟩; exact hk
    · intro hvT
      obtain ⟨k, rfl⟩ := (hx v).1 (List.mem_toFinset.1 (hT hvT))
      exact ⟨k, hvT, rfl⟩
  refine ⟨Finset.univ.filter fun σ => firstN N σ = A, fun σ => ?_, count_set hNu hAc, Nat.choose_pos hNu⟩
  rw [Finset.mem_filter]
  show _ ↔ randomSplit rnd (fun _ => shuffle σ) (noNull vals) frac false = .ok (vals.map fun v => decide (v ∈ T))
  obtain ⟨mask, hm, hl, hk⟩ := hs σ
  rw [hm, Except.ok.injEq]
  simp only [Finset.mem_univ, true_and]
  constructor
  · intro e
    apply List.ext_getElem (by simp [hl])
    intro i hi hi2
    have hi3 : i < vals.length := by omega
    obtain ⟨k, hxk⟩ := (hx vals[i]).1 (List.getElem_mem hi3)
    have := hk i hi3 k hxk
    rw [List.getElem?_eq_getElem hi, Option.some.injEq, e, hA] at this
    rw [List.getElem_map, ← Bool.coe_iff_coe, this, ← hxk]
    simp
  · rintro rfl
    ext k
    obtain ⟨i, hi, e⟩ := List.mem_iff_getElem.1 ((hx (x k)).2 ⟨k, rfl⟩)
    have := hk i hi k e.symm
    rw [← this, List.getElem?_map, List.getElem?_eq_getElem hi, hA, e]
    simp

/-- **C97, rows.** Each row is in the training set with probability `ceil(frac * u) / u`. -/
theorem C97_row {α : Type} [DecidableEq α] {rnd : K → K} (h : IsRounding rnd) {vals : List α}
    {frac : K} (h0 : 0 ≤ frac) (h1 : frac ≤ 1) {u N : ℕ} (hu : u = vals.toFinset.card)
    (hN : (N : Int) = ⌈rnd (frac * u)⌉) {i : ℕ} (hi : i < vals.length) :
    HasProb u (fun σ => ∃ mask, randomSplit rnd (fun _ => shuffle σ) (noNull vals) frac false = .ok mask ∧
      mask[i]? = some true) N u := by
  have hv : vals ≠ [] := by rintro rfl; simp at hi
  obtain ⟨x, hinj, hx, hNu, hs⟩ := split_shuffle h hv h0 h1 hu hN
  obtain ⟨k, hxk⟩ := (hx vals[i]).1 (List.getElem_mem hi)
  refine ⟨Finset.univ.filter fun σ => k ∈ firstN N σ, fun σ => ?_, count_mem hNu k, by have := k.2; omega⟩
  obtain ⟨mask, hm, hl, hk⟩ := hs σ
  simp only [Finset.mem_filter, Finset.mem_univ, true_and, hm, Except.ok.injEq, exists_eq_left']
  exact (hk i hi k hxk).symm

/-- **C97, rows, `assume_unique`.** The same with the hint: the rows themselves are drawn. -/
theorem C97_row_unique {α : Type} [DecidableEq α] {rnd : K → K} (h : IsRounding rnd) {vals : List α}
    {frac : K} (h0 : 0 ≤ frac) (h1 : frac ≤ 1) {n N : ℕ} (hn : n = vals.length)
    (hN : (N : Int) = ⌈rnd (frac * n)⌉) {i : ℕ} (hi : i < n) :
    HasProb n (fun σ => ∃ mask, randomSplit rnd (fun _ => shuffle σ) (noNull vals) frac true = .ok mask ∧
      mask[i]? = some true) N n := by
  have hb := h.ceil_nat h0 h1 n
  rw [← hN] at hb
  refine ⟨Finset.univ.filter fun σ => ⟨i, hi⟩ ∈ firstN N σ, fun σ => ?_, count_mem (by simpa using hb.2) _, by omega⟩
  have hr := randMask_ok h (by omega) (perm := fun _ => shuffle σ) (n := n) (shuffle_isPerm σ) h0 h1
  have hm : randomSplit rnd (fun _ => shuffle σ) (noNull vals) frac true =
      .ok ((List.range n).map fun i => decide (i ∈ (shuffle σ).take N)) := by
    unfold randomSplit
    rw [noNull_any, noNull_filterMap]
    simp only [if_true]
    rw [← hn, hr, ← hN]
    rfl
  simp only [Finset.mem_filter, Finset.mem_univ, true_and, hm, Except.ok.injEq, exists_eq_left']
  rw [mem_firstN, List.getElem?_map, List.getElem?_range hi]
  simp

/-- Three rows with two distinct values, half of them for training: the first row is a training row in one of two
equally likely cases. -/
example : HasProb 2 (fun σ => ∃ mask, randomSplit (id : ℚ → ℚ) (fun _ => shuffle σ) (noNull [7, 9, 7]) (1 / 2) false =
    .ok mask ∧ mask[0]? = some true) 1 2 :=
  C97_row isRounding_id (by norm_num) (by norm_num) (by decide) (by simp) (by simp)

/-- Two of three names in a given order: one in six. -/
example : HasProb 3 (fun σ => randSubset (id : ℚ → ℚ) (fun _ => shuffle σ) ["a", "b", "c"] (1 / 2) = .ok ["c", "a"]) 1 6 :=
  C97_rand_subset (n := 3) (x := ["a", "b", "c"]) (r := ["c", "a"]) (frac := 1 / 2) isRounding_id (by simp) (by decide)
    (by norm_num) (by norm_num) rfl (by decide) (by decide)
    (by symm; rw [Int.ceil_eq_iff]; norm_num)

/-- Every choice of two of four rows has probability one in six. -/
example : HasProb 4 (fun σ => randMask (id : ℚ → ℚ) (fun _ => shuffle σ) 4 (2 / 5) = .ok [true, false, false, true]) 1 6 :=
  C97_rand_mask (N := 2) isRounding_id (by norm_num) (by norm_num) (by norm_num)
    (by symm; rw [Int.ceil_eq_iff]; norm_num) rfl rfl

end
end Mlp.Props
