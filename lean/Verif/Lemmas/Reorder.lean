import Verif.Spec.Reorder
import Verif.Lemmas.PermInv
import Verif.Lemmas.Frames

/-! # Lemmas about reordering -/

namespace Mlp.Lemmas
open Mlp.Util Mlp.Spec Mlp.Frame

theorem reorder_length {α : Type} {σ : List Nat} {n : Nat} (hσ : IsPerm σ n) {l : List α} (h : l.length = n) :
    (reorder σ l).length = n := by
  subst h; exact (reorder_perm hσ).length_eq

theorem reorder_replicate {α : Type} {σ : List Nat} {n : Nat} (hσ : IsPerm σ n) (a : α) :
    reorder σ (List.replicate n a) = List.replicate n a := by
  have := reorder_perm (l := List.replicate n a) (σ := σ) (by simpa using hσ)
  exact List.perm_replicate.1 this

variable {K : Type}

theorem emptyCols_reorder {κ : Type} {σ : List Nat} {n : Nat} (hσ : IsPerm σ n) (keys : List κ) :
    (emptyCols (K := K) n keys).map (fun c => (c.1, reorder σ c.2)) = emptyCols n keys := by
  unfold emptyCols
  rw [List.map_map]
  exact List.map_congr_left fun k _ => by simp [reorder_replicate hσ]

theorem put_reorder {κ : Type} [DecidableEq κ] (σ : List Nat) (cols : Cols κ K) (kv : κ × List (Flt K)) :
    (put cols kv).map (fun c => (c.1, reorder σ c.2)) =
      put (cols.map fun c => (c.1, reorder σ c.2)) (kv.1, reorder σ kv.2) := by
  unfold put
  rw [List.map_map, List.map_map]
  refine List.map_congr_left fun c _ => ?_
  simp only [Function.comp]
  split <;> rfl

theorem puts_reorder {κ : Type} [DecidableEq κ] (σ : List Nat) (cols : Cols κ K) (kvs : List (κ × List (Flt K))) :
    (puts cols kvs).map (fun c => (c.1, reorder σ c.2)) =
      puts (cols.map fun c => (c.1, reorder σ c.2)) (kvs.map fun kv => (kv.1, reorder σ kv.2)) := by
  unfold puts
  induction kvs generalizing cols with
  | nil => rfl
  | cons kv kvs ih => rw [List.foldl_cons, ih, put_reorder, List.map_cons, List.foldl_cons]

theorem puts_lengths {κ : Type} [DecidableEq κ] {n : Nat} {cols : Cols κ K} {kvs : List (κ × List (Flt K))}
    (h : ∀ c ∈ cols, c.2.length = n) (h' : ∀ c ∈ kvs, c.2.length = n) : ∀ c ∈ puts cols kvs, c.2.length = n := by
  unfold puts
  induction kvs generalizing cols with
  | nil => exact h
  | cons kv kvs ih =>
    rw [List.foldl_cons]
    refine ih ?_ fun c hc => h' c (by simp [hc])
    intro c hc
    unfold put at hc
    obtain ⟨c', hc', rfl⟩ := List.mem_map.1 hc
    split
    · exact h' kv (by simp)
    · exact h c' hc'

theorem emptyCols_lengths {κ : Type} {n : Nat} (keys : List κ) : ∀ c ∈ emptyCols (K := K) n keys, c.2.length = n := by
  intro c hc
  unfold emptyCols at hc
  obtain ⟨k, -, rfl⟩ := List.mem_map.1 hc
  simp

theorem values_reorder {σ : List Nat} {n : Nat} (hσ : IsPerm σ n) {cols : Cols Int K} (h : ∀ c ∈ cols, c.2.length = n) :
    values n (cols.map fun c => (c.1, reorder σ c.2)) = reorderMat σ (values n cols) := by
  unfold values reorderMat
  have hlen : σ.length = n := by simpa using hσ.length_eq
  rw [Mat.mk.injEq]
  refine ⟨by simp, ?_⟩
  rw [reorder_eq_map [] (by simpa using perm_lt hσ)]
  refine List.ext_getElem (by simp [hlen]) fun i h1 h2 => ?_
  have hi : i < σ.length := by simpa using h2
  have hin := perm_lt hσ σ[i] (List.getElem_mem hi)
  simp only [List.getElem_map, List.getElem_range, List.map_map]
  rw [List.getD_eq_getElem?_getD, List.getElem?_map, List.getElem?_range hin]
  simp only [Option.map_some, Option.getD_some]
  refine List.map_congr_left fun c hc => ?_
  simp only [Function.comp]
  rw [reorder_eq_map .nan (by rw [h c hc]; exact perm_lt hσ), List.getD_eq_getElem?_getD, List.getElem?_map,
    List.getElem?_eq_getElem hi]
  rfl

theorem matrix_reorder {σ : List Nat} {t : PredTable K} (hσ : IsPerm σ t.nrows) (hc : ∀ c ∈ t.cols, c.2.length = t.nrows)
    {method : Str} {p : Mat K} (h : t.matrix method = .ok p) :
    (reorderPred σ t).matrix method = .ok (reorderMat σ p) := by
  obtain ⟨⟨h1, h2⟩, rfl⟩ := (matrix_ok_iff _ _ _).1 h
  have hl : labelsOf (reorderPred σ t) method = labelsOf t method := by
    unfold labelsOf reorderPred
    simp only [List.filterMap_map]
    rfl
  refine (matrix_ok_iff _ _ _).2 ⟨⟨?_, by rw [hl]; exact h2⟩, ?_⟩
  · unfold InOrder; rw [hl]; exact h1
  · unfold matrixOf reorderPred
    simp only [List.filter_map]
    rw [← values_reorder hσ]
    · rw [List.map_map, List.map_map]; rfl
    · intro c hc'
      obtain ⟨c', hc'', rfl⟩ := List.mem_map.1 hc'
      exact hc c' (List.mem_filter.1 hc'').1

theorem anyNaN_reorder {σ : List Nat} {p : Mat K} (hσ : IsPerm σ p.rows.length) :
    Classif.anyNaN (reorderMat σ p) = Classif.anyNaN p := any_perm (reorder_perm hσ) _

theorem colAt_reorder (σ : List Nat) (p : Mat K) (j : Nat) :
    Classif.colAt (reorderMat σ p) j = reorder σ (Classif.colAt p j) := by
  unfold Classif.colAt reorderMat
  rw [reorder_map]

theorem normalizeRows_reorder {σ : List Nat} {p q : Mat ℝ} (h : normalizeRows p = .ok q) :
    normalizeRows (reorderMat σ p) = .ok (reorderMat σ q) := by
  unfold normalizeRows at *
  rw [pyAssert_bind] at h ⊢
  split at h
  · rename_i h1
    rw [if_pos (by exact h1)]
    rw [pure_eq_ok, Except.ok.injEq] at h ⊢
    subst h
    unfold reorderMat
    simp only [reorder_map]
  · cases h

theorem floorMat_reorder (σ : List Nat) (c : Flt ℝ) (p : Mat ℝ) :
    Classif.floorMat c (reorderMat σ p) = reorderMat σ (Classif.floorMat c p) := by
  unfold Classif.floorMat reorderMat
  simp only [reorder_map]

theorem setBlock_reorder (σ : List Nat) (cols : Cols (Str × Int) K) (method : Str) (m : Mat K) :
    (Classif.setBlock cols method m).map (fun c => (c.1, reorder σ c.2)) =
      Classif.setBlock (cols.map fun c => (c.1, reorder σ c.2)) method (reorderMat σ m) := by
  unfold Classif.setBlock
  rw [List.map_map, List.map_map]
  refine List.map_congr_left fun c _ => ?_
  simp only [Function.comp]
  split
  · rw [colAt_reorder]
  · rfl

theorem forall₂_map_right {α β γ : Type} {R : α → β → Prop} {S : α → γ → Prop} (g : β → γ) {l : List α} {l' : List β}
    (h : List.Forall₂ R l l') (hg : ∀ a b, R a b → S a (g b)) : List.Forall₂ S l (l'.map g) := by
  induction h with
  | nil => exact .nil
  | cons h _ ih => exact .cons (hg _ _ h) ih

theorem forall₂_mem_imp {α β : Type} {R S : α → β → Prop} {l : List α} {l' : List β}
    (h : List.Forall₂ R l l') (hg : ∀ a b, a ∈ l → R a b → S a b) : List.Forall₂ S l l' := by
  induction h with
  | nil => exact .nil
  | cons h _ ih => exact .cons (hg _ _ (by simp) h) (ih fun a b ha => hg a b (by simp [ha]))

theorem forall₂_zipWith_mem {α β γ : Type} {R : α → β → Prop} {l : List α} {l' : List β} {f : α → β → γ} {c : γ}
    (h : List.Forall₂ R l l') (hc : c ∈ List.zipWith f l l') : ∃ a b, a ∈ l ∧ R a b ∧ c = f a b := by
  induction h with
  | nil => simp at hc
  | cons h _ ih =>
    rcases List.mem_cons.1 hc with rfl | hc
    · exact ⟨_, _, by simp, h, rfl⟩
    · obtain ⟨a, b, h1, h2, h3⟩ := ih hc
      exact ⟨a, b, by simp [h1], h2, h3⟩

end Mlp.Lemmas
