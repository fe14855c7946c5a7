import Verif.Model.Sciprint
import Verif.Spec.Reader
import Verif.Lemmas.DecLemmas
import Verif.Lemmas.Digits
import Mathlib.Tactic.FieldSimp
import Mathlib.Tactic.IntervalCases

/-! # Reading back `"{0:,f}".format(x)` -/

namespace Mlp
open Spec

theorem digitChar_isDigit (d : Nat) (h : d < 10) : IsDigit (digitChar d) := by
  interval_cases d <;> exact ⟨by decide, by decide⟩

theorem readDigit_digitChar (d : Nat) (h : d < 10) : readDigit (digitChar d) = some d := by
  interval_cases d <;> decide

theorem isDigit_ne {c : Char} (h : IsDigit c) :
    c ≠ ',' ∧ c ≠ '.' ∧ c ≠ '-' ∧ c ≠ '(' ∧ c ≠ ')' ∧ c ≠ 'E' := by
  refine ⟨?_, ?_, ?_, ?_, ?_, ?_⟩ <;> rintro rfl <;> revert h <;> unfold IsDigit <;> decide

/-- Base-ten value of a digit list, most significant first. -/
def foldDigits (acc : Nat) (l : List Nat) : Nat := l.foldl (fun a d => 10 * a + d) acc

theorem foldDigits_acc (l : List Nat) (a : Nat) :
    foldDigits a l = a * 10 ^ l.length + foldDigits 0 l := by
  induction l generalizing a with
  | nil => simp [foldDigits]
  | cons d l ih =>
    have h1 : ∀ b, foldDigits b (d :: l) = foldDigits (10 * b + d) l := fun b => rfl
    rw [h1, h1, ih, ih (10 * 0 + d)]
    simp only [List.length_cons, pow_succ]; ring

theorem foldDigits_append (l₁ l₂ : List Nat) :
    foldDigits 0 (l₁ ++ l₂) = foldDigits 0 l₁ * 10 ^ l₂.length + foldDigits 0 l₂ := by
  have : foldDigits 0 (l₁ ++ l₂) = foldDigits (foldDigits 0 l₁) l₂ := by
    simp [foldDigits, List.foldl_append]
  rw [this, foldDigits_acc]

theorem foldDigits_replicate (n : Nat) (l : List Nat) :
    foldDigits 0 (List.replicate n 0 ++ l) = foldDigits 0 l := by
  rw [foldDigits_append]
  have : foldDigits 0 (List.replicate n 0) = 0 := by
    induction n with
    | zero => rfl
    | succ n ih => rw [List.replicate_succ]; exact ih
  rw [this]; simp

theorem readDigitsFrom_map (l : List Nat) (hl : ∀ d ∈ l, d < 10) (acc : Nat) :
    readDigitsFrom acc (l.map digitChar) = some (foldDigits acc l) := by
  induction l generalizing acc with
  | nil => rfl
  | cons d l ih =>
    simp only [List.map_cons, readDigitsFrom, readDigit_digitChar d (hl d (by simp)),
      Option.bind_some]
    exact ih (fun x hx => hl x (by simp [hx])) _

theorem readNat_map (l : List Nat) (hl : ∀ d ∈ l, d < 10) (hne : l ≠ []) :
    readNat (l.map digitChar) = some (foldDigits 0 l) := by
  unfold readNat
  rw [if_neg (by simpa using hne), readDigitsFrom_map l hl]

theorem isDigit_map {l : List Nat} (hl : ∀ d ∈ l, d < 10) : ∀ c ∈ l.map digitChar, IsDigit c := by
  intro c hc
  obtain ⟨d, hd, rfl⟩ := List.mem_map.mp hc
  exact digitChar_isDigit d (hl d hd)

theorem splitAt_not_mem {c : Char} {s : Str} (h : c ∉ s) : Spec.splitAt c s = (s, none) := by
  induction s with
  | nil => rfl
  | cons x s ih =>
    simp only [List.mem_cons, not_or] at h
    rw [Spec.splitAt, if_neg (Ne.symm h.1), ih h.2]

theorem splitAt_append {c : Char} {s t : Str} (h : c ∉ s) :
    Spec.splitAt c (s ++ c :: t) = (s, some t) := by
  induction s with
  | nil => simp [Spec.splitAt]
  | cons x s ih =>
    simp only [List.mem_cons, not_or] at h
    rw [List.cons_append, Spec.splitAt, if_neg (Ne.symm h.1), ih h.2]

theorem not_mem_of_isDigit {s : Str} (h : ∀ c ∈ s, IsDigit c) :
    ',' ∉ s ∧ '.' ∉ s ∧ '-' ∉ s ∧ '(' ∉ s ∧ ')' ∉ s ∧ 'E' ∉ s := by
  refine ⟨?_, ?_, ?_, ?_, ?_, ?_⟩ <;> intro hc
  · exact (isDigit_ne (h _ hc)).1 rfl
  · exact (isDigit_ne (h _ hc)).2.1 rfl
  · exact (isDigit_ne (h _ hc)).2.2.1 rfl
  · exact (isDigit_ne (h _ hc)).2.2.2.1 rfl
  · exact (isDigit_ne (h _ hc)).2.2.2.2.1 rfl
  · exact (isDigit_ne (h _ hc)).2.2.2.2.2 rfl

/-! ## Grouping -/

theorem commasRev_filter (s : Str) (h : ',' ∉ s) : (commasRev s).filter (fun c => c ≠ ',') = s := by
  induction s using commasRev.induct with
  | case1 a b c d rest ih =>
    simp only [List.mem_cons, not_or] at h
    rw [commasRev]
    have h2 := ih (by simp only [List.mem_cons, not_or]; exact ⟨h.2.2.2.1, h.2.2.2.2⟩)
    simp only [List.filter_cons, ne_eq, Ne.symm h.1, Ne.symm h.2.1, Ne.symm h.2.2.1,
      not_false_eq_true, decide_true, if_true]
    simpa using h2
  | case2 l hl =>
    rw [commasRev]
    · rw [List.filter_eq_self]
      intro x hx
      simp only [ne_eq, decide_eq_true_eq]
      rintro rfl; exact h hx
    · exact hl

theorem group3_filter (s : Str) (h : ',' ∉ s) : (group3 s).filter (fun c => c ≠ ',') = s := by
  unfold group3
  rw [List.filter_reverse, commasRev_filter _ (by simpa using h), List.reverse_reverse]

theorem group3_last (s : Str) (a b c : Char) (h : s ≠ []) :
    group3 (s ++ [a, b, c]) = group3 s ++ [',', a, b, c] := by
  unfold group3
  have : (s ++ [a, b, c]).reverse = c :: b :: a :: s.reverse := by simp
  rw [this]
  cases hs : s.reverse with
  | nil => exact absurd (by simpa using hs) h
  | cons d rest => rw [commasRev]; simp

theorem group3_short (s : Str) (h : s.length ≤ 3) : group3 s = s := by
  unfold group3
  have : commasRev s.reverse = s.reverse := by
    rw [commasRev]
    intro a b c d rest h2
    have := congrArg List.length h2
    simp at this; omega
  rw [this, List.reverse_reverse]

theorem group3_grouped (s : Str) (hne : s ≠ []) (hd : ∀ c ∈ s, IsDigit c) : Grouped3 (group3 s) := by
  by_cases h : s.length ≤ 3
  · rw [group3_short s h]
    refine ⟨s, [], ?_, h, hd, by simp, by simp⟩
    exact List.length_pos_iff.mpr hne
  · have hs : s = s.take (s.length - 3) ++ s.drop (s.length - 3) := (List.take_append_drop _ _).symm
    have hl : (s.drop (s.length - 3)).length = 3 := by simp; omega
    obtain ⟨a, b, c, habc⟩ := List.length_eq_three.mp hl
    have hne' : s.take (s.length - 3) ≠ [] := by
      intro h0
      have := congrArg List.length h0
      simp at this; omega
    have hlt : (s.take (s.length - 3)).length < s.length := by simp; omega
    obtain ⟨hh, gs, h1, h2, h3, h4, h5⟩ := group3_grouped (s.take (s.length - 3)) hne'
      (fun c hc => hd c (List.mem_of_mem_take hc))
    refine ⟨hh, gs ++ [[a, b, c]], h1, h2, h3, ?_, ?_⟩
    · intro g hg
      rcases List.mem_append.mp hg with hg | hg
      · exact h4 g hg
      · have : g = [a, b, c] := by simpa using hg
        subst this
        refine ⟨rfl, fun x hx => hd x (List.mem_of_mem_drop (i := s.length - 3) ?_)⟩
        rw [habc]; exact hx
    · rw [hs, habc, group3_last _ a b c hne', h5]; simp
termination_by s.length

theorem group3_head (s : Str) (_hne : s ≠ []) : (group3 s).head? = s.head? := by
  by_cases h : s.length ≤ 3
  · rw [group3_short s h]
  · have hs : s = s.take (s.length - 3) ++ s.drop (s.length - 3) := (List.take_append_drop _ _).symm
    have hl : (s.drop (s.length - 3)).length = 3 := by simp; omega
    obtain ⟨a, b, c, habc⟩ := List.length_eq_three.mp hl
    have hne' : s.take (s.length - 3) ≠ [] := by
      intro h0
      have := congrArg List.length h0
      simp at this; omega
    have hlt : (s.take (s.length - 3)).length < s.length := by simp; omega
    have ih := group3_head (s.take (s.length - 3)) hne'
    have hg : (group3 s).head? = (group3 (s.take (s.length - 3)) ++ [',', a, b, c]).head? := by
      conv_lhs => rw [hs, habc, group3_last _ a b c hne']
    rw [hg]
    have hne2 : group3 (s.take (s.length - 3)) ≠ [] := by
      intro h0
      rw [h0] at ih
      cases ht : s.take (s.length - 3) with
      | nil => exact hne' ht
      | cons x l => rw [ht] at ih; simp at ih
    rw [List.head?_append_of_ne_nil _ hne2, ih]
    conv_rhs => rw [hs]
    rw [List.head?_append_of_ne_nil _ hne']
termination_by s.length

/-! ## The parts of `genFmt` -/

/-- Integer and fraction digit lists of a formatted finite decimal. -/
def fmtParts (c : Nat) (e : Int) : List Nat × List Nat :=
  let e := if c = 0 ∧ 0 < e then 0 else e
  let ds := digitsBE c
  let dot : Int := e + ds.length
  if dot < 0 then ([0], List.replicate (-dot).toNat 0 ++ ds)
  else if (ds.length : Int) < dot then (ds ++ List.replicate (dot.toNat - ds.length) 0, [])
  else (if ds.take dot.toNat = [] then [0] else ds.take dot.toNat, ds.drop dot.toNat)

theorem genFmt_fin (neg : Bool) (c : Nat) (e : Int) :
    genFmt (.fin neg c e) = (if neg then ['-'] else []) ++ group3 ((fmtParts c e).1.map digitChar) ++
      (if (fmtParts c e).2 = [] then [] else '.' :: (fmtParts c e).2.map digitChar) := by
  have h0 : digitChar 0 = '0' := by decide
  obtain ⟨e1, he1⟩ : ∃ e1, e1 = (if c = 0 ∧ 0 < e then 0 else e) := ⟨_, rfl⟩
  simp only [genFmt, fmtParts, digitsStr, List.length_map, ← he1]
  by_cases h1 : e1 + ((digitsBE c).length : Int) < 0
  · simp only [h1, if_true]
    simp [h0]
  · simp only [h1, if_false]
    by_cases h2 : ((digitsBE c).length : Int) < e1 + ((digitsBE c).length : Int)
    · simp only [h2, if_true]
      simp [h0]
    · simp only [h2, if_false]
      by_cases h3 : (digitsBE c).take (e1 + ((digitsBE c).length : Int)).toNat = []
      · simp only [← List.map_take, h3, List.map_nil, if_true, ← List.map_drop]
        simp [h0]
      · simp only [← List.map_take, h3, if_false, ← List.map_drop]
        have : ¬ (List.map digitChar ((digitsBE c).take (e1 + ((digitsBE c).length : Int)).toNat) = []) := by
          simpa using h3
        simp only [this, if_false]
        simp

theorem fmtParts_digits (c : Nat) (e : Int) :
    (∀ d ∈ (fmtParts c e).1, d < 10) ∧ (∀ d ∈ (fmtParts c e).2, d < 10) := by
  unfold fmtParts
  generalize (if c = 0 ∧ 0 < e then 0 else e) = e1
  have hd := digitsBE_lt c
  simp only []
  split
  · refine ⟨by simp, fun d h => ?_⟩
    rcases List.mem_append.mp h with h | h
    · rw [List.eq_of_mem_replicate h]; norm_num
    · exact hd d h
  · split
    · refine ⟨fun d h => ?_, by simp⟩
      rcases List.mem_append.mp h with h | h
      · exact hd d h
      · rw [List.eq_of_mem_replicate h]; norm_num
    · refine ⟨fun d h => ?_, fun d h => hd d (List.mem_of_mem_drop h)⟩
      split at h
      · have : d = 0 := by simpa using h
        omega
      · exact hd d (List.mem_of_mem_take h)

theorem fmtParts_ne (c : Nat) (e : Int) : (fmtParts c e).1 ≠ [] := by
  unfold fmtParts
  generalize (if c = 0 ∧ 0 < e then 0 else e) = e1
  simp only []
  split
  · simp
  · split
    · have := digitsBE_ne_nil c
      simp [this]
    · split
      · simp
      · assumption

theorem foldDigits_digitsBE (c : Nat) : foldDigits 0 (digitsBE c) = c := foldl_digitsBE c

/-- The two parts together denote `c * 10^e`, with `-e` decimal places when `e ≤ 0`. -/
theorem fmtParts_value (c : Nat) (e : Int) :
    ((foldDigits 0 (fmtParts c e).1 : Nat) : ℚ) +
        ((foldDigits 0 (fmtParts c e).2 : Nat) : ℚ) / 10 ^ (fmtParts c e).2.length =
      (c : ℚ) * 10 ^ e ∧ (fmtParts c e).2.length = (-e).toNat := by
  have key : ∀ e1 : Int, ¬ (c = 0 ∧ 0 < e1) →
      ((foldDigits 0 (fmtParts c e1).1 : Nat) : ℚ) +
        ((foldDigits 0 (fmtParts c e1).2 : Nat) : ℚ) / 10 ^ (fmtParts c e1).2.length =
      (c : ℚ) * 10 ^ e1 ∧ (fmtParts c e1).2.length = (-e1).toNat := by
    intro e1 he1
    unfold fmtParts
    rw [if_neg he1]
    have hv := foldDigits_digitsBE c
    simp only []
    set ds := digitsBE c with hds
    by_cases h1 : e1 + (ds.length : Int) < 0
    · simp only [h1, if_true]
      have hlen : (List.replicate (-(e1 + (ds.length : Int))).toNat 0 ++ ds).length = (-e1).toNat := by
        simp; omega
      refine ⟨?_, hlen⟩
      rw [hlen, foldDigits_replicate, hv]
      have h0 : foldDigits 0 [0] = 0 := rfl
      have he : (e1 : Int) = -((-e1).toNat : Int) := by omega
      conv_rhs => rw [he]
      rw [h0, zpow_neg, zpow_natCast]
      simp [div_eq_mul_inv]
    · simp only [h1, if_false]
      by_cases h2 : (ds.length : Int) < e1 + (ds.length : Int)
      · simp only [h2, if_true]
        refine ⟨?_, by simp; omega⟩
        rw [foldDigits_append, hv]
        have hz : foldDigits 0 (List.replicate ((e1 + (ds.length : Int)).toNat - ds.length) 0) = 0 := by
          have := foldDigits_replicate ((e1 + (ds.length : Int)).toNat - ds.length) []
          simpa [foldDigits] using this
        rw [hz]
        have he : e1 = (((e1 + (ds.length : Int)).toNat - ds.length : Nat) : Int) := by omega
        conv_rhs => rw [he]
        rw [zpow_natCast]
        have h0 : foldDigits 0 ([] : List Nat) = 0 := rfl
        rw [h0]
        simp
      · simp only [h2, if_false]
        have hlen : (ds.drop (e1 + (ds.length : Int)).toNat).length = (-e1).toNat := by
          rw [List.length_drop]; omega
        refine ⟨?_, hlen⟩
        have hsplit : c = foldDigits 0 (ds.take (e1 + (ds.length : Int)).toNat) *
            10 ^ (ds.drop (e1 + (ds.length : Int)).toNat).length +
            foldDigits 0 (ds.drop (e1 + (ds.length : Int)).toNat) := by
          rw [← foldDigits_append, List.take_append_drop, hv]
        have hip : foldDigits 0 (if ds.take (e1 + (ds.length : Int)).toNat = [] then [0]
            else ds.take (e1 + (ds.length : Int)).toNat) =
            foldDigits 0 (ds.take (e1 + (ds.length : Int)).toNat) := by
          split
          · rename_i h; rw [h]; rfl
          · rfl
        rw [hip]
        have he : (e1 : Int) = -((-e1).toNat : Int) := by omega
        have hc : (c : ℚ) = (foldDigits 0 (ds.take (e1 + (ds.length : Int)).toNat) : ℚ) *
            10 ^ (-e1).toNat + (foldDigits 0 (ds.drop (e1 + (ds.length : Int)).toNat) : ℚ) := by
          rw [← hlen]; exact_mod_cast hsplit
        conv_rhs => rw [he]
        rw [zpow_neg, zpow_natCast, hlen, hc]
        field_simp
  by_cases hz : c = 0 ∧ 0 < e
  · have h1 : fmtParts c e = fmtParts c 0 := by
      unfold fmtParts
      simp [hz]
    obtain ⟨h2, h3⟩ := key 0 (by omega)
    rw [h1]
    refine ⟨?_, by rw [h3]; omega⟩
    rw [h2, hz.1]; simp
  · exact key e hz

theorem readUnsigned_parts (l₁ l₂ : List Nat) (h₁ : ∀ d ∈ l₁, d < 10) (h₂ : ∀ d ∈ l₂, d < 10)
    (hne : l₁ ≠ []) :
    readUnsigned (l₁.map digitChar ++ (if l₂ = [] then [] else '.' :: l₂.map digitChar)) =
      some ((foldDigits 0 l₁ : ℚ) + (foldDigits 0 l₂ : ℚ) / 10 ^ l₂.length, l₂.length) := by
  have hdot := (not_mem_of_isDigit (isDigit_map h₁)).2.1
  unfold readUnsigned
  by_cases h : l₂ = []
  · subst h
    rw [if_pos rfl, List.append_nil, splitAt_not_mem hdot]
    simp [readNat_map l₁ h₁ hne, foldDigits]
  · rw [if_neg h, splitAt_append hdot]
    simp [readNat_map l₁ h₁ hne, readNat_map l₂ h₂ h]

/-- Reading back a formatted finite decimal gives its exact value and its decimal places. -/
theorem readNum_genFmt (neg : Bool) (c : Nat) (e : Int) :
    readNum (genFmt (.fin neg c e)) = some (sval neg c e, (-e).toNat) := by
  rw [genFmt_fin]
  obtain ⟨hd1, hd2⟩ := fmtParts_digits c e
  have hne := fmtParts_ne c e
  obtain ⟨hv, hlen⟩ := fmtParts_value c e
  have hr := readUnsigned_parts _ _ hd1 hd2 hne
  rw [hv, hlen] at hr
  set l₁ := (fmtParts c e).1
  set l₂ := (fmtParts c e).2
  have hc1 := (not_mem_of_isDigit (isDigit_map hd1)).1
  have hc2 := (not_mem_of_isDigit (isDigit_map hd2)).1
  have hfr : List.filter (fun c => decide (c ≠ ',')) (if l₂ = [] then [] else '.' :: l₂.map digitChar) =
      (if l₂ = [] then [] else '.' :: l₂.map digitChar) := by
    rw [List.filter_eq_self]
    intro x hx
    simp only [ne_eq, decide_eq_true_eq]
    rintro rfl
    split at hx
    · simp at hx
    · rcases List.mem_cons.mp hx with h | h
      · revert h; decide
      · exact hc2 h
  have hsv : sval neg c e = (if neg then -1 else 1) * ((c : ℚ) * 10 ^ e) := by
    unfold sval; cases neg <;> simp
  unfold readNum
  rw [List.filter_append, List.filter_append, group3_filter _ hc1, hfr]
  cases neg with
  | true =>
    have : List.filter (fun c => decide (c ≠ ',')) (if true = true then ['-'] else []) = ['-'] := by
      decide
    rw [this]
    simp only [List.cons_append, List.nil_append]
    rw [hr, hsv]
    simp
  | false =>
    simp only [Bool.false_eq_true, if_false, List.filter_nil, List.nil_append]
    have hnm : ∀ t, l₁.map digitChar ++ (if l₂ = [] then [] else '.' :: l₂.map digitChar) ≠ '-' :: t := by
      intro t ht
      have hm := (not_mem_of_isDigit (isDigit_map hd1)).2.2.1
      cases hl : l₁.map digitChar with
      | nil => exact hne (by simpa using hl)
      | cons x s =>
        rw [hl] at ht hm
        simp only [List.cons_append, List.cons.injEq] at ht
        exact hm (by rw [ht.1]; simp)
    split
    · rename_i s' hs'
      exact absurd hs' (hnm s')
    · rw [hr, hsv]; simp

theorem digitsBE_head (c : Nat) (h : c ≠ 0) : (digitsBE c).head? ≠ some 0 := by
  unfold digitsBE
  rw [if_neg h, List.head?_reverse]
  intro h2
  have h3 := Nat.getLast_digit_ne_zero 10 h
  have hne : Nat.digits 10 c ≠ [] := by simpa [Nat.digits_ne_nil_iff_ne_zero] using h
  rw [List.getLast?_eq_some_getLast hne] at h2
  injection h2 with h2
  exact h3 h2

theorem digitsBE_zero : digitsBE 0 = [0] := rfl

theorem fmtParts_head (c : Nat) (e : Int) :
    (fmtParts c e).1 = [0] ∨ (fmtParts c e).1.head? ≠ some 0 := by
  by_cases hc : c = 0
  · left
    subst hc
    unfold fmtParts
    rw [digitsBE_zero]
    simp only [true_and, List.length_singleton]
    have he1 : (if 0 < e then 0 else e) ≤ 0 := by split <;> omega
    generalize (if 0 < e then 0 else e) = e1 at *
    split
    · rfl
    · split
      · push_cast at *; omega
      · split
        · rfl
        · rename_i h
          cases hk : (e1 + ((1 : Nat) : Int)).toNat with
          | zero => rw [hk] at h; simp at h
          | succ k => simp
  · have hh := digitsBE_head c hc
    have hne := digitsBE_ne_nil c
    unfold fmtParts
    simp only [hc, false_and, if_false]
    split
    · left; rfl
    · split
      · right
        rwa [List.head?_append_of_ne_nil _ hne]
      · split
        · left; rfl
        · rename_i h
          right
          simp only []
          cases hk : (e + ((digitsBE c).length : Int)).toNat with
          | zero => rw [hk] at h; simp at h
          | succ k =>
            rw [List.head?_take, if_neg (by omega)]; exact hh

theorem genFmt_shape (neg : Bool) (c : Nat) (e : Int) : NumShape (genFmt (.fin neg c e)) := by
  obtain ⟨hd1, hd2⟩ := fmtParts_digits c e
  have hne := fmtParts_ne c e
  have hne' : (fmtParts c e).1.map digitChar ≠ [] := by simpa using hne
  refine ⟨_, _, _, genFmt_fin neg c e, by cases neg <;> simp,
    group3_grouped _ hne' (isDigit_map hd1), ?_, ?_⟩
  · rcases fmtParts_head c e with h | h
    · left
      rw [h]; decide
    · right
      rw [group3_head _ hne', List.head?_map]
      cases hh : (fmtParts c e).1.head? with
      | none => simp
      | some d =>
        rw [hh] at h
        have hd : d < 10 := hd1 d (List.mem_of_head? hh)
        have hd0 : d ≠ 0 := fun h0 => h (by rw [h0])
        simp only [Option.map_some, ne_eq, Option.some.injEq]
        interval_cases d
        · exact absurd rfl hd0
        all_goals decide
  · by_cases h : (fmtParts c e).2 = []
    · left; rw [if_pos h]
    · right
      rw [if_neg h]
      exact ⟨_, rfl, by simpa using h, isDigit_map hd2⟩

end Mlp
