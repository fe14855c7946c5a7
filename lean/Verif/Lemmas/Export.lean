import Verif.Model.Export
import Verif.Spec.Export
import Mathlib.Data.List.GetD

/-! # Lemmas about the text export -/

namespace Mlp.Lemmas
open Mlp.Sciprint Mlp.Spec

theorem pprintThing_eq (s : Str) : pprintThing s = escaped s := by
  induction s with
  | nil => rfl
  | cons c s ih =>
    unfold pprintThing at ih ⊢
    rw [List.flatMap_cons, ih, escaped]
    congr 1
    split_ifs with h1 h2 h3
    · subst h1; rfl
    · subst h2; rfl
    · subst h3; rfl
    · unfold escapedChar; split <;> simp_all

theorem escaped_no_newline (s : Str) : '\n' ∉ escaped s := by
  induction s with
  | nil => simp [escaped]
  | cons c s ih =>
    rw [escaped, List.mem_append]
    rintro (h | h)
    · unfold escapedChar at h
      split at h <;> simp_all
      exact absurd h.symm ‹_›
    · exact ih h

theorem escaped_id {s : Str} (h : ∀ c ∈ s, c ≠ '\t' ∧ c ≠ '\n' ∧ c ≠ '\r') : escaped s = s := by
  induction s with
  | nil => rfl
  | cons c s ih =>
    have hc := h c (by simp)
    rw [escaped, ih fun x hx => h x (by simp [hx])]
    unfold escapedChar
    split <;> simp_all

theorem mem_escaped {s : Str} {c : Char} (h : c ∈ escaped s) : c ∈ s ∨ c = '\\' ∨ c = 't' ∨ c = 'n' ∨ c = 'r' := by
  induction s with
  | nil => simp [escaped] at h
  | cons d s ih =>
    rw [escaped, List.mem_append] at h
    rcases h with h | h
    · unfold escapedChar at h
      split at h <;> simp at h ⊢ <;> tauto
    · rcases ih h with h | h
      · simp [h]
      · tauto

theorem mem_clipped {n : Nat} {s : Str} {c : Char} (h : c ∈ clipped n s) : c ∈ s ∨ c = '.' := by
  unfold clipped at h
  split_ifs at h
  · exact .inl h
  · rw [List.mem_append] at h
    rcases h with h | h
    · exact .inl (List.mem_of_mem_take h)
    · right; simpa using h

theorem clipped_length {n : Nat} (hn : 3 ≤ n) (s : Str) : (clipped n s).length = min s.length n := by
  unfold clipped
  split_ifs with h
  · omega
  · simp; omega

/-! ## Blanks -/

theorem trim_cons (s : Str) : trim (' ' :: s) = trim s := by simp [trim]

theorem trim_snoc (s : Str) : trim (s ++ [' ']) = trim s := by
  unfold trim
  rw [List.dropWhile_append]
  split_ifs with h
  · rw [List.isEmpty_iff] at h
    rw [h]; simp
  · simp

theorem trim_left (k : Nat) (s : Str) : trim (List.replicate k ' ' ++ s) = trim s := by
  induction k with
  | zero => rfl
  | succ k ih => rw [List.replicate_succ, List.cons_append, trim_cons, ih]

theorem trim_right (k : Nat) (s : Str) : trim (s ++ List.replicate k ' ') = trim s := by
  induction k with
  | zero => simp
  | succ k ih => rw [List.replicate_succ', ← List.append_assoc, trim_snoc, ih]

theorem trim_rjust (w : Nat) (s : Str) : trim (rjust w s) = trim s := trim_left _ _

theorem trim_ljust (w : Nat) (s : Str) : trim (ljust w s) = trim s := trim_right _ _

theorem rjust_length (w : Nat) (s : Str) : (rjust w s).length = max w s.length := by simp [rjust]; omega

theorem ljust_length (w : Nat) (s : Str) : (ljust w s).length = max w s.length := by simp [ljust]; omega

theorem mem_rjust {w : Nat} {s : Str} {c : Char} (h : c ∈ rjust w s) : c = ' ' ∨ c ∈ s := by
  unfold rjust at h
  rw [List.mem_append] at h
  exact h.imp_left List.eq_of_mem_replicate

theorem mem_ljust {w : Nat} {s : Str} {c : Char} (h : c ∈ ljust w s) : c = ' ' ∨ c ∈ s := by
  unfold ljust at h
  rw [List.mem_append] at h
  exact h.symm.imp_left List.eq_of_mem_replicate

theorem rjust_rjust {v w : Nat} (h : v ≤ w) (s : Str) : rjust w (rjust v s) = rjust w s := by
  unfold rjust
  rw [← List.append_assoc, List.replicate_append_replicate]
  congr 2
  simp
  omega

/-! ## Columns -/

theorem maxLen_le {l : List Str} {x : Str} (h : x ∈ l) : x.length ≤ maxLen l := by
  induction l with
  | nil => simp at h
  | cons a l ih =>
    unfold maxLen at ih ⊢
    rw [List.map_cons, List.foldr_cons]
    rcases List.mem_cons.mp h with rfl | h
    · omega
    · have := ih h; omega

theorem maxLen_const {l : List Str} {n : Nat} (hne : l ≠ []) (h : ∀ x ∈ l, x.length = n) : maxLen l = n := by
  induction l with
  | nil => exact absurd rfl hne
  | cons a l ih =>
    by_cases hl : l = []
    · subst hl; simp [maxLen, h a]
    · have := ih hl fun x hx => h x (by simp [hx])
      unfold maxLen at this ⊢
      rw [List.map_cons, List.foldr_cons, this, h a (by simp)]
      simp

theorem makeFixedWidth_eq (just : Nat → Str → Str) (m : Nat) (l : List Str) :
    makeFixedWidth just m l = l.map fun x => just (min (max m (maxLen l)) 50) (clipped 50 x) := by
  unfold makeFixedWidth maxColWidth
  refine List.map_congr_left fun x hx => ?_
  have := maxLen_le hx
  unfold clipped
  by_cases h : x.length ≤ 50
  · rw [if_pos h, if_neg (by omega)]
  · rw [if_neg h, if_pos (by omega)]
    congr 3
    omega

theorem clipped_cons (c : Char) (n : Nat) (hn : 3 ≤ n) (s : Str) : clipped (n + 1) (c :: s) = c :: clipped n s := by
  unfold clipped
  by_cases h : s.length ≤ n
  · rw [if_pos h, if_pos (by simpa using h)]
  · rw [if_neg h, if_neg (by simpa using h), show n + 1 - 3 = (n - 3) + 1 by omega, List.take_succ_cons]; rfl

/-- Width of the cells of a column. -/
def cellWidth (header : Str) (cells : List Str) : Nat :=
  min (max (escaped header).length (maxLen (cells.map fun v => ' ' :: escaped v))) 50

theorem strColumn_eq (header : Str) (cells : List Str) (hne : cells ≠ []) :
    strColumn header cells = rjust (max (cellWidth header cells) (escaped header).length) (escaped header) ::
      cells.map fun v => rjust (cellWidth header cells) (' ' :: clipped 49 (escaped v)) := by
  set L := cells.map fun v => ' ' :: escaped v with hL
  have hLne : L ≠ [] := by simpa [hL] using hne
  have hv1 : ∀ x ∈ L, (clipped 50 x).length ≤ min (maxLen L) 50 := by
    intro x hx
    rw [clipped_length (by omega)]
    have := maxLen_le hx
    omega
  have hvals : makeFixedWidth rjust 0 L = L.map fun x => rjust (min (maxLen L) 50) (clipped 50 x) := by
    rw [makeFixedWidth_eq, Nat.zero_max]
  have hlen : ∀ x ∈ makeFixedWidth rjust 0 L, x.length = min (maxLen L) 50 := by
    rw [hvals]
    intro x hx
    obtain ⟨y, hy, rfl⟩ := List.mem_map.mp hx
    rw [rjust_length]
    have := hv1 y hy
    omega
  have hmax : maxLen (makeFixedWidth rjust 0 L) = min (maxLen L) 50 :=
    maxLen_const (by rw [hvals]; simpa using hLne) hlen
  have hW : min (max (escaped header).length (maxLen (makeFixedWidth rjust 0 L))) 50 = cellWidth header cells := by
    rw [hmax]; unfold cellWidth; rw [← hL]; omega
  have hvals2 : makeFixedWidth rjust (escaped header).length (makeFixedWidth rjust 0 L) =
      cells.map fun v => rjust (cellWidth header cells) (' ' :: clipped 49 (escaped v)) := by
    rw [makeFixedWidth_eq, hW, hvals, hL, List.map_map, List.map_map]
    refine List.map_congr_left fun v hv => ?_
    have hvL : (' ' :: escaped v) ∈ L := List.mem_map.mpr ⟨v, hv, rfl⟩
    have h1 := hv1 _ hvL
    show rjust _ (clipped 50 (rjust _ (clipped 50 (' ' :: escaped v)))) = _
    rw [← hL]
    rw [show clipped 50 (rjust (min (maxLen L) 50) (clipped 50 (' ' :: escaped v))) =
        rjust (min (maxLen L) 50) (clipped 50 (' ' :: escaped v)) from by
      rw [clipped, if_pos]; rw [rjust_length]; omega]
    rw [rjust_rjust (by rw [← hW, hmax]; omega), clipped_cons _ 49 (by omega)]
  unfold strColumn
  simp only [pprintThing_eq]
  rw [← hL, hvals2]
  congr 2
  congr 1
  refine maxLen_const (by simpa using hne) fun x hx => ?_
  obtain ⟨v, hv, rfl⟩ := List.mem_map.mp hx
  have hvL : (' ' :: escaped v) ∈ L := List.mem_map.mpr ⟨v, hv, rfl⟩
  have h2 := maxLen_le hvL
  rw [rjust_length, List.length_cons, clipped_length (by omega)]
  unfold cellWidth
  rw [← hL]
  rw [List.length_cons] at h2
  omega

theorem cell_fits {header : Str} {cells : List Str} {v : Str} (h : v ∈ cells) :
    (clipped 49 (escaped v)).length + 1 ≤ cellWidth header cells := by
  have h2 := maxLen_le (l := cells.map fun v => ' ' :: escaped v) (List.mem_map.mpr ⟨v, h, rfl⟩)
  rw [clipped_length (by omega)]
  unfold cellWidth
  rw [List.length_cons] at h2
  omega

/-- Width of the row labels. -/
def labelWidth (labels : List Str) : Nat := min (maxLen (labels.map escaped)) 50

theorem indexColumn_eq (labels : List Str) :
    indexColumn labels = [] :: labels.map fun x => ljust (labelWidth labels) (clipped 50 (escaped x)) := by
  unfold indexColumn labelWidth
  rw [makeFixedWidth_eq, List.map_map]
  simp only [Nat.zero_max]
  congr 1
  refine List.map_congr_left fun x hx => ?_
  have : labels.map pprintThing = labels.map escaped := List.map_congr_left fun x _ => pprintThing_eq x
  simp [this, pprintThing_eq]

theorem label_fits {labels : List Str} {v : Str} (h : v ∈ labels) :
    (clipped 50 (escaped v)).length ≤ labelWidth labels := by
  have h2 := maxLen_le (l := labels.map escaped) (List.mem_map.mpr ⟨v, h, rfl⟩)
  rw [clipped_length (by omega)]
  unfold labelWidth
  omega

/-- The header line, field by field. -/
def headRow (cols : List (Str × List Str)) : List Str :=
  [] :: cols.map fun hc => rjust (max (cellWidth hc.1 hc.2) (escaped hc.1).length) (escaped hc.1)

/-- Line `i` of the body, field by field. -/
def bodyRow (labels : List Str) (cols : List (Str × List Str)) (i : Nat) : List Str :=
  ljust (labelWidth labels) (clipped 50 (escaped (labels.getD i []))) ::
    cols.map fun hc => rjust (cellWidth hc.1 hc.2) (' ' :: clipped 49 (escaped (hc.2.getD i [])))

theorem rowsOf_frame (labels : List Str) (cols : List (Str × List Str)) (hne : labels ≠ [])
    (hlen : ∀ hc ∈ cols, hc.2.length = labels.length) :
    rowsOf (labels.length + 1) (frameColumns labels cols) =
      headRow cols :: (List.range labels.length).map (bodyRow labels cols) := by
  unfold rowsOf
  have hcol : ∀ hc ∈ cols, hc.2 ≠ [] := by
    intro hc h0 h1
    have := hlen hc h0
    rw [h1] at this
    exact hne (List.length_eq_zero_iff.mp this.symm)
  rw [List.range_succ_eq_map, List.map_cons, List.map_map]
  congr 1
  · unfold frameColumns headRow
    rw [List.map_cons, List.map_map]
    congr 1
    refine List.map_congr_left fun hc h0 => ?_
    show (strColumn hc.1 hc.2).getD 0 [] = _
    rw [strColumn_eq _ _ (hcol hc h0)]
    rfl
  · refine List.map_congr_left fun i hi => ?_
    rw [List.mem_range] at hi
    show List.map (fun c : List Str => c.getD (i + 1) []) (frameColumns labels cols) = _
    unfold frameColumns bodyRow
    rw [List.map_cons, List.map_map]
    congr 1
    · rw [indexColumn_eq, List.getD_cons_succ, List.getD_eq_getElem _ _ (by simpa using hi), List.getElem_map,
        List.getD_eq_getElem _ _ hi]
    · refine List.map_congr_left fun hc h0 => ?_
      have hi' : i < hc.2.length := by rw [hlen hc h0]; exact hi
      show (strColumn hc.1 hc.2).getD (i + 1) [] = _
      rw [strColumn_eq _ _ (hcol hc h0), List.getD_cons_succ, List.getD_eq_getElem _ _ (by simpa using hi'),
        List.getElem_map, List.getD_eq_getElem _ _ hi']

/-! ## Splitting -/

theorem joinLines_split {lines : List Str} (hne : lines ≠ []) (h : ∀ l ∈ lines, '\n' ∉ l) :
    (joinLines lines).splitOn '\n' = lines :=
  List.splitOn_intercalate '\n' h hne

theorem split_amp : ∀ (l : List Str) (x p : Str), '&' ∉ p → (∀ y ∈ x :: l, '&' ∉ y) →
    ((p ++ (" & ".toList.intercalate (x :: l) ++ [' '])).splitOn '&').map trim = trim (p ++ x) :: l.map trim
  | [], x, p, hp, h => by
    have hx := h x (by simp)
    rw [List.intercalate_singleton, List.splitOn_eq_singleton (by simp [hp, hx])]
    simp [← List.append_assoc, trim_snoc]
  | y :: l, x, p, hp, h => by
    have hx := h x (by simp)
    have hi : " & ".toList.intercalate (x :: y :: l) = x ++ ([' '] ++ '&' :: ([' '] ++ " & ".toList.intercalate (y :: l))) := by
      rw [List.intercalate_cons_cons]
      simp
    rw [hi]
    have hs : p ++ (x ++ ([' '] ++ '&' :: ([' '] ++ " & ".toList.intercalate (y :: l))) ++ [' ']) =
        (p ++ x ++ [' ']) ++ '&' :: ([' '] ++ (" & ".toList.intercalate (y :: l) ++ [' '])) := by simp
    rw [hs, List.splitOn_append_cons_of_beq _ _ (by simp), List.splitOn_eq_singleton (by simp [hp, hx]), List.singleton_append,
      List.map_cons, split_amp l y [' '] (by decide) fun z hz => h z (by simp at hz ⊢; tauto)]
    rw [trim_snoc, List.singleton_append, trim_cons]
    rfl

theorem slices_flatten : ∀ (l : List Str), slices (l.map List.length) l.flatten = l
  | [] => rfl
  | x :: l => by
    rw [List.map_cons, List.flatten_cons, slices, List.take_left, List.drop_left, slices_flatten l]

end Mlp.Lemmas
