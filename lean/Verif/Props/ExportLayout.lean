import Verif.Props.Export

/-!
# C100, C101: the exact layout of the exported text, and what it keeps of a cell
-/

namespace Mlp.Props
open Mlp Mlp.Sciprint Mlp.Spec Mlp.Lemmas

theorem maxLen_eq_longest (l : List Str) : maxLen l = longest l := by
  induction l with
  | nil => rfl
  | cons a l ih => unfold longest; rw [← ih]; rfl

theorem maxLen_const {l : List Str} {w : Nat} (hne : l ≠ []) (h : ∀ x ∈ l, x.length = w) : maxLen l = w := by
  induction l with
  | nil => exact absurd rfl hne
  | cons a l ih =>
    rw [maxLen_eq_longest, longest, ← maxLen_eq_longest, h a (by simp)]
    cases l with
    | nil => simp [maxLen]
    | cons b l => rw [ih (by simp) fun x hx => h x (by simp at hx ⊢; tauto), max_self]

theorem cellRoom_eq (h : Str) (c : List Str) : cellWidth h c = cellRoom h c := by
  unfold cellWidth cellRoom; rw [maxLen_eq_longest]

/-- A line of `adjoin`, column by column. -/
theorem adjoin_line (sel : List Str → Str) : ∀ (c : List Str) (cols : List (List Str)),
    (∀ d ∈ c :: cols, (sel d).length ≤ maxLen d) →
    adjoinLine (adjoinWidths (c :: cols)) ((c :: cols).map sel) =
      padRight (maxLen c) (sel c) ++ cols.flatMap fun d => ' ' :: padRight (maxLen d) (sel d)
  | c, [], _ => by simp [adjoinLine, adjoinWidths, ljust, padRight]
  | c, d :: cols, h => by
    have hw : adjoinWidths (c :: d :: cols) = (maxLen c + 1) :: adjoinWidths (d :: cols) := by rw [adjoinWidths]; simp
    have ih := adjoin_line sel d cols fun x hx => h x (by simp at hx ⊢; tauto)
    have hc := h c (by simp)
    have e : ljust (maxLen c + 1) (sel c) = padRight (maxLen c) (sel c) ++ [' '] := by
      unfold ljust padRight
      rw [show maxLen c + 1 - (sel c).length = (maxLen c - (sel c).length) + 1 by omega, List.replicate_succ',
        List.append_assoc]
    unfold adjoinLine at ih ⊢
    rw [hw, List.map_cons, List.zipWith_cons_cons, List.flatten_cons, ih, e]
    simp

/-- Width of a column. -/
theorem strColumn_maxLen (header : Str) (cells : List Str) (hne : cells ≠ []) :
    maxLen (strColumn header cells) = max (cellRoom header cells) (escaped header).length := by
  rw [strColumn_eq _ _ hne, maxLen_eq_longest, longest, ← maxLen_eq_longest, maxLen_const (w := cellWidth header cells)]
  · rw [rjust_length, cellRoom_eq]; omega
  · simpa using hne
  · intro x hx
    obtain ⟨v, hv, rfl⟩ := List.mem_map.1 hx
    have := cell_fits (header := header) hv
    rw [rjust_length, List.length_cons]; omega

theorem indexColumn_maxLen (labels : List Str) (hne : labels ≠ []) :
    maxLen (indexColumn labels) = min (longest (labels.map escaped)) 50 := by
  rw [indexColumn_eq, maxLen_eq_longest, longest, ← maxLen_eq_longest, maxLen_const (w := labelWidth labels)]
  · unfold labelWidth; rw [maxLen_eq_longest]; simp
  · simpa using hne
  · intro x hx
    obtain ⟨v, hv, rfl⟩ := List.mem_map.1 hx
    have := label_fits hv
    rw [ljust_length]; omega

/-- **C100** The exact plain text of `just_format_it`: the method names padded to their longest (at most 50 characters), and for
each column one blank and the header or cell to the right of a room that just holds the header and the longest cell with a
leading blank.  Nothing else, and no blank at the end of a line. -/
theorem C100_layout (sortAbs : List Int → List Int) (ebLimit : Str → Option Int) (o : FormatOpts Str)
    (ud : Str → Option Str) (usePrefix : Bool) (t : Table Str FpCell) (text : Str)
    (h : justFormatItText sortAbs ebLimit o ud usePrefix false t = .ok text) :
    ∃ st, justFormatIt sortAbs ebLimit o ud usePrefix false t = .ok st ∧
      let cols := st.headers.zip (st.cols.flatMap fun col => [col.2.2.map Prod.fst, col.2.2.map Prod.snd])
      let w := min (longest (t.methods.map escaped)) 50
      text.splitOn '\n' =
        (padRight w [] ++ cols.flatMap fun hc => ' ' :: headField hc.1 hc.2) ::
        (List.range t.methods.length).map fun i =>
          padRight w (clipped 50 (escaped (t.methods.getD i []))) ++
            cols.flatMap fun hc => ' ' :: cellField hc.1 hc.2 (hc.2.getD i []) := by
  rw [justFormatItText_eq] at h
  cases hst : justFormatIt sortAbs ebLimit o ud usePrefix false t with
  | error e => rw [hst] at h; cases h
  | ok st =>
    rw [hst] at h
    simp only [Except.map, Bool.false_eq_true, if_false] at h
    cases h
    obtain ⟨hne, hlen, hcols, hcells⟩ := table_sizes hst
    have hcolsm : ∀ hc ∈ st.headers.zip st.cells, hc.2.length = t.methods.length :=
      fun hc hmem => hcells _ (List.of_mem_zip hmem).2
    refine ⟨st, rfl, ?_⟩
    change _ = (padRight _ [] ++ (st.headers.zip st.cells).flatMap _) :: _
    obtain ⟨hr0, hr1⟩ := rowsOf_get (rowsOf_frame t.methods (st.headers.zip st.cells) hne hcolsm)
    have hcne : ∀ hc ∈ st.headers.zip st.cells, hc.2 ≠ [] := by
      intro hc h0 h1
      have := hcolsm hc h0
      rw [h1] at this
      exact hne (List.length_eq_zero_iff.mp this.symm)
    have hline : ∀ i, adjoinLine (adjoinWidths (frameColumns t.methods (st.headers.zip st.cells)))
          ((frameColumns t.methods (st.headers.zip st.cells)).map fun c => c.getD i []) =
        padRight (min (longest (t.methods.map escaped)) 50) ((indexColumn t.methods).getD i []) ++
          (st.headers.zip st.cells).flatMap fun hc =>
            ' ' :: padRight (max (cellRoom hc.1 hc.2) (escaped hc.1).length) ((strColumn hc.1 hc.2).getD i []) := by
      intro i
      unfold frameColumns
      rw [adjoin_line (fun c => c.getD i []) _ _ fun d _ => getD_le_maxLen d i, indexColumn_maxLen _ hne,
        List.flatMap_map]
      congr 1
      refine List.flatMap_congr fun hc hmem => ?_
      rw [strColumn_maxLen _ _ (hcne hc hmem)]
    have padself : ∀ (w : Nat) (s : Str), padRight w (padLeft w s) = padLeft w s := by
      intro w s
      unfold padRight padLeft
      rw [List.length_append, List.length_replicate]
      rw [show w - (w - s.length + s.length) = 0 by omega]
      simp
    rw [toStringText_lines _ _ hne hcolsm]
    congr 1
    · rw [hr0, hline 0]
      congr 1
      · refine List.flatMap_congr fun hc hmem => ?_
        rw [strColumn_eq _ _ (hcne hc hmem), List.getD_cons_zero, cellRoom_eq]
        unfold headField
        exact congrArg _ (padself _ _)
    · refine List.map_congr_left fun i hi => ?_
      have hi := List.mem_range.1 hi
      rw [hr1 i hi, hline (i + 1)]
      congr 1
      · rw [indexColumn_eq, List.getD_cons_succ, List.getD_eq_getElem _ _ (by simpa using hi), List.getElem_map,
          List.getD_eq_getElem _ _ hi]
        have hl : labelWidth t.methods = min (longest (t.methods.map escaped)) 50 := by
          unfold labelWidth; rw [maxLen_eq_longest]
        rw [hl]
        unfold padRight ljust
        have := label_fits (List.getElem_mem hi)
        rw [hl] at this
        rw [List.length_append, List.length_replicate, show ∀ a b : Nat, b ≤ a → a - (b + (a - b)) = 0 by omega]
        · simp
        · exact this
      · refine List.flatMap_congr fun hc hmem => ?_
        have hi' : i < hc.2.length := by rw [hcolsm hc hmem]; exact hi
        rw [strColumn_eq _ _ (hcne hc hmem), List.getD_cons_succ, List.getD_eq_getElem _ _ (by simpa using hi'),
          List.getElem_map, List.getD_eq_getElem _ _ hi', cellRoom_eq]
        rfl

theorem keeps_field (n : Nat) (hn : 3 ≤ n) (s : Str) : KeepsUpTo n s (fieldText n s) := fun hs =>
  ⟨(C101_field n hn s hs).1, (C101_field n hn s hs).2.1⟩

/-- **C101** In the plain text, every method name of at most 50 and every estimate and p-value of at most 49 characters appears
as it is; a longer one appears as its first 47 or 46 characters and three dots. -/
theorem C101_text (sortAbs : List Int → List Int) (ebLimit : Str → Option Int) (o : FormatOpts Str)
    (ud : Str → Option Str) (usePrefix : Bool) (t : Table Str FpCell) (text : Str)
    (h : justFormatItText sortAbs ebLimit o ud usePrefix false t = .ok text) :
    ∃ st ws hdr body, justFormatIt sortAbs ebLimit o ud usePrefix false t = .ok st ∧
      text.splitOn '\n' = hdr :: body ∧ body.length = t.methods.length ∧
      ∀ i, (hi : i < body.length) → ∃ name fields, (slices ws body[i]).map trim = name :: fields ∧
        KeepsUpTo 50 (t.methods.getD i []) name ∧
        List.Forall₂ (KeepsUpTo 49)
          (st.cols.flatMap fun col => [(col.2.2.getD i ([], [])).1, (col.2.2.getD i ([], [])).2]) fields := by
  obtain ⟨st, ws, hdr, body, h1, h2, h3, -, -, -, h7⟩ := C100_text _ _ _ _ _ _ _ h
  refine ⟨st, ws, hdr, body, h1, h2, h3, fun i hi => ⟨_, _, h7 i hi, keeps_field 50 (by omega) _, ?_⟩⟩
  induction st.cols with
  | nil => exact .nil
  | cons a l ih =>
    exact .cons (keeps_field 49 (by omega) _) (.cons (keeps_field 49 (by omega) _) ih)

/-- **C101** The LaTeX text cuts the same cells in the same way. -/
theorem C101_latex (sortAbs : List Int → List Int) (ebLimit : Str → Option Int) (o : FormatOpts Str)
    (ud : Str → Option Str) (usePrefix : Bool) (t : Table Str FpCell) (text : Str)
    (h : justFormatItText sortAbs ebLimit o ud usePrefix true t = .ok text)
    (hl : ∀ m ∈ t.methods, m ≠ [] ∧ '&' ∉ m)
    (hm : ∀ m ∈ t.metrics, '&' ∉ m ∧ ∀ u, ud m = some u → '&' ∉ u)
    (hn : ∀ k s, o.nff k = some s → '&' ∉ s) :
    ∃ st body, justFormatIt sortAbs ebLimit o ud usePrefix true t = .ok st ∧
      ((text.splitOn '\n').drop 4).take t.methods.length = body ∧ body.length = t.methods.length ∧
      ∀ i, (hi : i < body.length) → ∃ name fields, IsTexRow body[i] (name :: fields) ∧
        KeepsUpTo 50 (t.methods.getD i []) name ∧
        List.Forall₂ (KeepsUpTo 49)
          (st.cols.flatMap fun col => [(col.2.2.getD i ([], [])).1, (col.2.2.getD i ([], [])).2]) fields := by
  obtain ⟨st, hdr, body, h1, h2, -, -, h5, h6⟩ := C99_latex _ _ _ _ _ _ _ h hl hm hn
  refine ⟨st, body, h1, ?_, h5, fun i hi => ⟨_, _, h6 i hi, keeps_field 50 (by omega) _, ?_⟩⟩
  · rw [h2, ← h5]
    simp
  · induction st.cols with
    | nil => exact .nil
    | cons a l ih =>
      exact .cons (keeps_field 49 (by omega) _) (.cons (keeps_field 49 (by omega) _) ih)

/-- C101, concrete: a string of 50 characters does not keep its last four. -/
example : KeepsUpTo 49 (List.replicate 49 '0' ++ ['7']) (List.replicate 46 '0' ++ "...".toList) ∧
    KeepsUpTo 49 "0.25(3)".toList "0.25(3)".toList := by
  constructor
  · intro _; exact ⟨by decide, fun _ => by decide⟩
  · intro _; exact ⟨fun _ => by decide, by decide⟩

end Mlp.Props
