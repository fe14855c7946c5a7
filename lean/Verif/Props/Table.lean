import Verif.Spec.Table
import Verif.Props.Shift
import Verif.Props.Header

/-! # Properties C20, C21, C22: whole tables -/

namespace Mlp.Props
open Mlp Spec Sciprint

theorem lowClip_eq (x : Option Int) : decimal1ek (expoOfLimit x) true = lowClip x := by
  cases x <;> rfl

theorem highClip_eq (x : Option Int) : decimal1ek (expoOfLimit x) false = highClip x := by
  cases x <;> rfl

theorem validClips_limits (x y : Option Int) : ValidClips (lowClip x) (highClip y) := by
  refine ⟨?_, ?_, ?_⟩
  · cases x with
    | none => left; rfl
    | some k => right; exact ⟨_, _, _, rfl⟩
  · cases y with
    | none => left; rfl
    | some k => right; exact ⟨_, _, _, rfl⟩
  · cases x with
    | none => cases y <;> simp [lowClip, highClip, DLt]
    | some k =>
      cases y with
      | none => simp [lowClip, highClip, DLt]
      | some j =>
        simp only [lowClip, highClip, DLt, sval]
        have := zpow10_pos k
        have := zpow10_pos j
        simp; linarith

theorem samePlaces_iff (col : List DecCell) :
    allSame ((col.filter fun x => x.pval.isFinite).map fun x => expOf x.pval) = true ↔
      SamePlaces col := by
  rw [C24_all_same]
  constructor
  · intro h x hx y hy n c e n' c' e' hxp hyp
    have := h (expOf x.pval) (List.mem_map.mpr ⟨x, List.mem_filter.mpr ⟨hx, by rw [hxp]; rfl⟩, rfl⟩)
      (expOf y.pval) (List.mem_map.mpr ⟨y, List.mem_filter.mpr ⟨hy, by rw [hyp]; rfl⟩, rfl⟩)
    rw [hxp, hyp] at this
    exact this
  · intro h a ha b hb
    obtain ⟨x, hx, rfl⟩ := List.mem_map.mp ha
    obtain ⟨y, hy, rfl⟩ := List.mem_map.mp hb
    obtain ⟨hx1, hx2⟩ := List.mem_filter.mp hx
    obtain ⟨hy1, hy2⟩ := List.mem_filter.mp hy
    cases hxp : x.pval with
    | nan => rw [hxp] at hx2; cases hx2
    | inf _ => rw [hxp] at hx2; cases hx2
    | fin n c e =>
      cases hyp : y.pval with
      | nan => rw [hyp] at hy2; cases hy2
      | inf _ => rw [hyp] at hy2; cases hy2
      | fin n' c' e' => exact h x hx1 y hy1 n c e n' c' e' hxp hyp

theorem zip_filter_map {α : Type} (l : List α) (g : α → Bool) :
    ((l.zip (l.map g)).filter fun p => p.2).map (fun p => p.1) = l.filter g := by
  induction l with
  | nil => rfl
  | cons a l ih =>
    simp only [List.map_cons, List.zip_cons_cons, List.filter_cons]
    cases h : g a <;> simp [ih]

theorem unclipped_eq (lo hi : Dec) (col : List DecCell) :
    (col.filter fun x => Dec.leNum lo x.mean && Dec.leNum x.mean hi) = unclipped lo hi col := by
  classical
  unfold unclipped
  apply List.filter_congr
  intro x _
  rw [Bool.eq_iff_iff, Bool.and_eq_true, leNum_iff, leNum_iff, decide_eq_true_eq]

/-- The in-range mask never raises when no mean is NaN. -/
theorem mask_ok (lo hi : Dec) (hlo : lo.isNan = false) (hhi : hi.isNan = false) (col : List DecCell)
    (h : ∀ x ∈ col, x.mean ≠ .nan) :
    (col.mapM fun x => (do
      let a ← Dec.le lo x.mean
      let b ← Dec.le x.mean hi
      return (a && b) : Py Bool)) =
    .ok (col.map fun x => Dec.leNum lo x.mean && Dec.leNum x.mean hi) := by
  apply mapM_eq_ok_map
  intro x hx
  have hn : x.mean.isNan = false := by
    have := h x hx
    cases hm : x.mean <;> simp_all [Dec.isNan]
  simp [Dec.le, hn, hlo, hhi, pure_eq_ok, ok_bind]

/-- A NaN mean raises `InvalidOperation`. -/
theorem mask_nan (lo hi : Dec) (col : List DecCell) (hlo : lo.isNan = false) (hhi : hi.isNan = false)
    (x : DecCell) (hx : x ∈ col) (hn : x.mean = .nan) :
    (col.mapM fun x => (do
      let a ← Dec.le lo x.mean
      let b ← Dec.le x.mean hi
      return (a && b) : Py Bool)) = .error .invalidOperation := by
  induction col with
  | nil => cases hx
  | cons y col ih =>
    rw [List.mapM_cons]
    by_cases hy : y.mean = .nan
    · rw [hy]; simp [Dec.le, Dec.isNan, error_bind]
    · have hyn : y.mean.isNan = false := by cases hm : y.mean <;> simp_all [Dec.isNan]
      rcases List.mem_cons.mp hx with h | h
      · rw [h] at hn; exact absurd hn hy
      · have h1 : Dec.le lo y.mean = .ok (Dec.leNum lo y.mean) := by
          simp [Dec.le, hyn, hlo]
        have h2 : Dec.le y.mean hi = .ok (Dec.leNum y.mean hi) := by
          simp [Dec.le, hyn, hhi]
        rw [h1, ok_bind, h2, ok_bind, pure_eq_ok, ok_bind, ih h, error_bind]

/-- `format_table`'s column loop with the checks resolved. -/
theorem formatColumn_eq {κ : Type} (sortAbs : List Int → List Int) (o : FormatOpts κ) (metric : κ)
    (col : List DecCell) (hp : SamePlaces col) (hn : ∀ x ∈ col, x.mean ≠ .nan) :
    formatColumn sortAbs o metric col = (do
      pyAssert (decimalAllFinite ((unclipped (lowClip (o.crapMin metric)) (highClip (o.crapMax metric)) col).map
        fun x => x.mean))
      let shift ←
        (match o.shiftMod with
          | none => pure 0
          | some m => findShift sortAbs
            ((unclipped (lowClip (o.crapMin metric)) (highClip (o.crapMax metric)) col).map fun x => x.mean)
            ((unclipped (lowClip (o.crapMin metric)) (highClip (o.crapMax metric)) col).map fun x => x.err) m : Py Int)
      let rows ← col.mapM fun x => do
        let est ← printEstimate x.mean x.err shift (lowClip (o.crapMin metric)) (highClip (o.crapMax metric)) o.nff
        let p ← printPval x.pval o.nff
        return (est, p)
      if o.pad then
        let padded ← padNumStr (rows.map fun r => r.1)
        return (shift, padded.zip (rows.map fun r => r.2))
      else return (shift, rows)) := by
  unfold formatColumn
  have hv := (validClips_limits (o.crapMin metric) (o.crapMax metric)).notNan
  rw [pyAssert_bind, if_pos ((samePlaces_iff col).mpr hp)]
  simp only [lowClip_eq, highClip_eq]
  rw [mask_ok _ _ hv.1 hv.2 col hn, ok_bind, zip_filter_map, unclipped_eq]
  cases o.shiftMod <;> rfl

theorem forall₂_and {α β : Type} {R S : α → β → Prop} {l : List α} {r : List β} :
    List.Forall₂ (fun a b => R a b ∧ S a b) l r ↔ List.Forall₂ R l r ∧ List.Forall₂ S l r := by
  constructor
  · intro h; exact ⟨h.imp fun _ _ h => h.1, h.imp fun _ _ h => h.2⟩
  · rintro ⟨h1, h2⟩
    induction h1 with
    | nil => exact .nil
    | cons h _ ih =>
      cases h2 with
      | cons h' h2 => exact .cons ⟨h, h'⟩ (ih h2)

theorem padNumStr_length {l out : List Str} {pad : Char} (h : padNumStr l pad = .ok out) :
    out.length = l.length := by
  unfold padNumStr at h
  rw [bind_ok_iff] at h
  obtain ⟨_, -, h⟩ := h
  rw [bind_ok_iff] at h
  obtain ⟨_, -, h⟩ := h
  rw [mapM_ok_iff] at h
  exact h.length_eq.symm

/-- **C20** Exactly when a column is formatted, and what comes out: one shift for the column
(0, or the best shift of the unclipped entries), every cell printed with that shift and the
column's clips, in row order, and (if asked) padded. -/
theorem C20_format_column {κ : Type} (sortAbs : List Int → List Int) (o : FormatOpts κ) (metric : κ)
    (col : List DecCell) (s : Int) (rows : List (Str × Str)) :
    formatColumn sortAbs o metric col = .ok (s, rows) ↔
      SamePlaces col ∧ (∀ x ∈ col, x.mean ≠ .nan) ∧
      (∀ x ∈ unclipped (lowClip (o.crapMin metric)) (highClip (o.crapMax metric)) col,
        ∃ n c e, x.mean = .fin n c e) ∧
      ColShift sortAbs o.shiftMod
        (unclipped (lowClip (o.crapMin metric)) (highClip (o.crapMax metric)) col) s ∧
      (∃ ests, List.Forall₂ (fun x t => printEstimate x.mean x.err s (lowClip (o.crapMin metric))
          (highClip (o.crapMax metric)) o.nff = .ok t) col ests ∧
        (o.pad = false → rows.map Prod.fst = ests) ∧
        (o.pad = true → padNumStr ests ' ' = .ok (rows.map Prod.fst))) ∧
      List.Forall₂ (fun x t => printPval x.pval o.nff = .ok t) col (rows.map Prod.snd) := by
  by_cases hp : SamePlaces col
  swap
  · constructor
    · intro h
      unfold formatColumn at h
      rw [pyAssert_bind, if_neg (by rw [samePlaces_iff]; exact hp)] at h
      cases h
    · intro h; exact absurd h.1 hp
  by_cases hn : ∀ x ∈ col, x.mean ≠ .nan
  swap
  · constructor
    · intro h
      push Not at hn
      obtain ⟨x, hx, hxn⟩ := hn
      have hv := (validClips_limits (o.crapMin metric) (o.crapMax metric)).notNan
      unfold formatColumn at h
      rw [pyAssert_bind, if_pos ((samePlaces_iff col).mpr hp)] at h
      simp only [lowClip_eq, highClip_eq] at h
      rw [mask_nan _ _ col hv.1 hv.2 x hx hxn, error_bind] at h
      cases h
    · intro h; exact absurd h.2.1 hn
  rw [formatColumn_eq sortAbs o metric col hp hn]
  set kept := unclipped (lowClip (o.crapMin metric)) (highClip (o.crapMax metric)) col with hkept
  have hfin : decimalAllFinite (kept.map fun x => x.mean) = true ↔
      ∀ x ∈ kept, ∃ n c e, x.mean = .fin n c e := by
    unfold decimalAllFinite
    rw [List.all_eq_true]
    constructor
    · intro h x hx
      have := h _ (List.mem_map.mpr ⟨x, hx, rfl⟩)
      cases hm : x.mean with
      | nan => rw [hm] at this; cases this
      | inf _ => rw [hm] at this; cases this
      | fin n c e => exact ⟨n, c, e, rfl⟩
    · intro h d hd
      obtain ⟨x, hx, rfl⟩ := List.mem_map.mp hd
      obtain ⟨n, c, e, hm⟩ := h x hx
      rw [hm]; rfl
  rw [pyAssert_bind]
  by_cases hf : decimalAllFinite (kept.map fun x => x.mean) = true
  swap
  · rw [if_neg hf]
    constructor
    · intro h; cases h
    · intro h; exact absurd (hfin.mpr h.2.2.1) hf
  rw [if_pos hf]
  have hshift : ∀ s', ((match o.shiftMod with
          | none => pure 0
          | some m => findShift sortAbs (kept.map fun x => x.mean) (kept.map fun x => x.err) m : Py Int)) =
        .ok s' ↔ ColShift sortAbs o.shiftMod kept s' := by
    intro s'
    unfold ColShift
    cases o.shiftMod with
    | none => simp [pure_eq_ok, eq_comm]
    | some m => rfl
  have hrow : ∀ s' (l : List DecCell) (rr : List (Str × Str)), (l.mapM fun x => (do
        let est ← printEstimate x.mean x.err s' (lowClip (o.crapMin metric)) (highClip (o.crapMax metric)) o.nff
        let p ← printPval x.pval o.nff
        return (est, p) : Py (Str × Str))) = .ok rr ↔
      List.Forall₂ (fun x t => printEstimate x.mean x.err s' (lowClip (o.crapMin metric))
          (highClip (o.crapMax metric)) o.nff = .ok t) l (rr.map Prod.fst) ∧
      List.Forall₂ (fun x t => printPval x.pval o.nff = .ok t) l (rr.map Prod.snd) := by
    intro s' l rr
    rw [mapM_ok_iff, List.forall₂_map_right_iff, List.forall₂_map_right_iff, ← forall₂_and]
    have hiff : ∀ (x : DecCell) (t : Str × Str), (do
        let est ← printEstimate x.mean x.err s' (lowClip (o.crapMin metric)) (highClip (o.crapMax metric)) o.nff
        let p ← printPval x.pval o.nff
        return (est, p) : Py (Str × Str)) = .ok t ↔
        (printEstimate x.mean x.err s' (lowClip (o.crapMin metric)) (highClip (o.crapMax metric)) o.nff = .ok t.1 ∧
          printPval x.pval o.nff = .ok t.2) := by
      intro x t
      rw [bind_ok_iff]
      constructor
      · rintro ⟨a, ha, h⟩
        rw [bind_ok_iff] at h
        obtain ⟨p, hp', h⟩ := h
        cases h
        exact ⟨ha, hp'⟩
      · rintro ⟨h1, h2⟩
        refine ⟨t.1, h1, ?_⟩
        rw [h2, ok_bind]; rfl
    constructor
    · intro h; exact h.imp (fun a b hab => (hiff a b).mp hab)
    · intro h; exact h.imp (fun a b hab => (hiff a b).mpr hab)
  rw [bind_ok_iff]
  constructor
  · rintro ⟨s', hs', h⟩
    rw [hshift] at hs'
    rw [bind_ok_iff] at h
    obtain ⟨rr, hrr, h⟩ := h
    rw [hrow] at hrr
    by_cases hpad : o.pad = true
    · rw [if_pos hpad, bind_ok_iff] at h
      obtain ⟨padded, hpd, h⟩ := h
      cases h
      have hl := padNumStr_length hpd
      rw [List.length_map] at hl
      refine ⟨hp, hn, hfin.mp hf, hs', ⟨rr.map Prod.fst, hrr.1, fun h => (by rw [hpad] at h; cases h), fun _ => ?_⟩, ?_⟩
      · rw [List.map_fst_zip (by simp [hl])]; exact hpd
      · rw [List.map_snd_zip (by simp [hl])]; exact hrr.2
    · rw [if_neg hpad] at h
      cases h
      exact ⟨hp, hn, hfin.mp hf, hs', ⟨_, hrr.1, fun _ => rfl, fun h => absurd h hpad⟩, hrr.2⟩
  · rintro ⟨-, -, -, hs, ⟨ests, he, hpad0, hpad1⟩, hpv⟩
    refine ⟨s, (hshift s).mpr hs, ?_⟩
    have hlen : ests.length = (rows.map Prod.snd).length := by rw [← he.length_eq, hpv.length_eq]
    rw [(hrow s col (ests.zip (rows.map Prod.snd))).mpr (by
      rw [List.map_fst_zip hlen.le, List.map_snd_zip hlen.ge]; exact ⟨he, hpv⟩), ok_bind]
    by_cases hpad : o.pad = true
    · rw [if_pos hpad]
      have : (List.map (fun r => r.1) (ests.zip (List.map Prod.snd rows))) = ests :=
        List.map_fst_zip hlen.le
      rw [this, hpad1 hpad, ok_bind]
      have : (List.map (fun r => r.2) (ests.zip (List.map Prod.snd rows))) = rows.map Prod.snd :=
        List.map_snd_zip hlen.ge
      rw [this, List.zip_map', pure_eq_ok]
      simp
    · rw [if_neg hpad, ← hpad0 (by simpa using hpad), List.zip_map', pure_eq_ok]
      simp

/-- **C20** The metrics of a formatted table: each once, in sorted order. -/
theorem C20_metric_order {κ : Type} [LinearOrder κ] (l : List κ) :
    (levels l).Nodup ∧ (levels l).Pairwise (· ≤ ·) ∧ ∀ m, m ∈ levels l ↔ m ∈ l := by
  unfold levels
  refine ⟨(List.perm_insertionSort _ _).nodup_iff.mpr (List.nodup_dedup l),
    List.pairwise_insertionSort _ _, fun m => ?_⟩
  rw [(List.perm_insertionSort _ _).mem_iff, List.mem_dedup]

/-- **C20** `format_table` formats every metric's column. -/
theorem C20_format_table {κ : Type} [LinearOrder κ] (sortAbs : List Int → List Int)
    (o : FormatOpts κ) (t : Table κ DecCell) (out : List (κ × Int × List (Str × Str))) :
    formatTable sortAbs o t = .ok out ↔
      t.methods ≠ [] ∧ t.metrics ≠ [] ∧
      List.Forall₂ (fun metric r => r.1 = metric ∧
        formatColumn sortAbs o metric (t.methods.map fun method => t.cell method metric) = .ok r.2)
        (levels t.metrics) out := by
  unfold formatTable formatCols
  rw [pyAssert_bind, pyAssert_bind]
  by_cases h1 : t.methods = []
  · simp [h1]
  by_cases h2 : t.metrics = []
  · simp [h2]
  rw [if_pos (by simpa using List.length_pos_iff.mpr h1),
    if_pos (by simpa using List.length_pos_iff.mpr h2), mapM_ok_iff, List.forall₂_map_left_iff]
  have : ∀ (metric : κ) (r : κ × Int × List (Str × Str)), (do
      let r' ← formatColumn sortAbs o metric (t.methods.map fun method => t.cell method metric)
      return (metric, r'.1, r'.2) : Py (κ × Int × List (Str × Str))) = .ok r ↔ (r.1 = metric ∧
        formatColumn sortAbs o metric (t.methods.map fun method => t.cell method metric) = .ok r.2) := by
    intro metric r
    rw [bind_ok_iff]
    constructor
    · rintro ⟨a, ha, h⟩
      cases h
      exact ⟨rfl, ha⟩
    · rintro ⟨rfl, h⟩
      exact ⟨_, h, rfl⟩
  simp only [this, h1, h2, ne_eq, not_false_iff, true_and]

/-- C20, concrete: two methods, modulus 1. -/
example : formatColumn (κ := Nat) (fun l => l.insertionSort fun a b => |a| ≤ |b|) { shiftMod := some 1 } 0
    [⟨.fin false 1234 (-5), .fin false 12 (-5), .fin false 123 (-4)⟩,
     ⟨.fin true 5 (-4), .inf false, .fin false 1 (-4)⟩] =
    .ok (2, [("1.234(12)".toList, "0.0123".toList), ("-0.05     ".toList, "<0.0001".toList)]) := by
  decide +kernel

/-! ## C21 -/

/-- **C21** A NaN mean always fails (with `InvalidOperation` once the p-value check passes). -/
theorem C21_nan_mean {κ : Type} (sortAbs : List Int → List Int) (o : FormatOpts κ) (metric : κ)
    (col : List DecCell) (x : DecCell) (hx : x ∈ col) (hn : x.mean = .nan) :
    formatColumn sortAbs o metric col =
      .error (if allSame ((col.filter fun x => x.pval.isFinite).map fun x => expOf x.pval) then
        .invalidOperation else .assertion) := by
  have hv := (validClips_limits (o.crapMin metric) (o.crapMax metric)).notNan
  unfold formatColumn
  rw [pyAssert_bind]
  split
  · simp only [lowClip_eq, highClip_eq]
    rw [mask_nan _ _ col hv.1 hv.2 x hx hn, error_bind]
  · rfl

/-- **C21** An infinite mean is rejected with AssertionError unless its metric has a crap limit
on that side. -/
theorem C21_infinite_mean {κ : Type} (sortAbs : List Int → List Int) (o : FormatOpts κ) (metric : κ)
    (col : List DecCell) (hn : ∀ x ∈ col, x.mean ≠ .nan) (x : DecCell) (hx : x ∈ col)
    (h : (x.mean = .inf false ∧ o.crapMax metric = none) ∨ (x.mean = .inf true ∧ o.crapMin metric = none)) :
    formatColumn sortAbs o metric col = .error .assertion := by
  by_cases hp : SamePlaces col
  · rw [formatColumn_eq sortAbs o metric col hp hn, pyAssert_bind, if_neg]
    intro hf
    unfold decimalAllFinite at hf
    rw [List.all_eq_true] at hf
    classical
    have hmem : x ∈ unclipped (lowClip (o.crapMin metric)) (highClip (o.crapMax metric)) col := by
      unfold unclipped
      rw [List.mem_filter]
      refine ⟨hx, ?_⟩
      rw [decide_eq_true_eq]
      rcases h with ⟨h1, h2⟩ | ⟨h1, h2⟩ <;> rw [h1, h2]
      · cases o.crapMin metric <;> simp [lowClip, highClip, DLe]
      · cases o.crapMax metric <;> simp [lowClip, highClip, DLe]
    have := hf _ (List.mem_map.mpr ⟨x, hmem, rfl⟩)
    rcases h with ⟨h1, -⟩ | ⟨h1, -⟩ <;> rw [h1] at this <;> cases this
  · unfold formatColumn
    rw [pyAssert_bind, if_neg (by rw [samePlaces_iff]; exact hp)]

/-- **C21** An infinite mean behind a crap limit is printed as clipped at that limit. -/
theorem C21_infinite_mean_clipped (EB : Dec) (shift : Int) (kmin kmax : Option Int)
    (nff : NonFiniteFmt) :
    (∀ k, kmax = some k → ∃ t, printEstimate (.inf false) EB shift (lowClip kmin) (highClip kmax) nff =
        .ok ('>' :: t) ∧ readEst t = some (10 ^ (k + shift), (-(k + shift)).toNat, none)) ∧
    (∀ k, kmin = some k → ∃ t, printEstimate (.inf true) EB shift (lowClip kmin) (highClip kmax) nff =
        .ok ('<' :: t) ∧ readEst t = some (-10 ^ (k + shift), (-(k + shift)).toNat, none)) := by
  have hv := validClips_limits kmin kmax
  obtain ⟨h1, -⟩ := C03_clipped_reads_back (.inf false) EB shift (lowClip kmin) (highClip kmax) nff hv
  obtain ⟨-, h2⟩ := C03_clipped_reads_back (.inf true) EB shift (lowClip kmin) (highClip kmax) nff hv
  constructor
  · rintro k rfl
    obtain ⟨t, ht, hr⟩ := h1 false 1 k rfl (by norm_num) (by simp [highClip, DLt])
    refine ⟨t, ht, ?_⟩
    rw [hr, ← sval_shift]; simp [sval]
  · rintro k rfl
    obtain ⟨t, ht, hr⟩ := h2 true 1 k rfl (by norm_num) (by simp [lowClip, DLt])
    refine ⟨t, ht, ?_⟩
    rw [hr, ← sval_shift]; simp [sval]

/-- **C21** With `shift_mod=None`, an unclipped finite mean that is not defined to the point makes
formatting fail, and the error is ValueError if all rows above print. -/
theorem C21_not_to_dot {κ : Type} (sortAbs : List Int → List Int) (o : FormatOpts κ) (metric : κ)
    (above below : List DecCell) (x : DecCell) (hm : o.shiftMod = none)
    (hp : SamePlaces (above ++ x :: below))
    (hfin : ∀ y ∈ above ++ x :: below, ∃ n c e, y.mean = .fin n c e)
    (habove : ∀ y ∈ above, (∃ t, printEstimate y.mean y.err 0 (lowClip (o.crapMin metric))
      (highClip (o.crapMax metric)) o.nff = .ok t) ∧ ∃ t, printPval y.pval o.nff = .ok t)
    (n : Bool) (c : Nat) (e : Int) (hx : x.mean = .fin n c e) (hc : c < 10 ^ 28) (he : 0 < e)
    (hlo : DLe (lowClip (o.crapMin metric)) x.mean) (hhi : DLe x.mean (highClip (o.crapMax metric))) :
    formatColumn sortAbs o metric (above ++ x :: below) = .error .valueError := by
  have hn : ∀ y ∈ above ++ x :: below, y.mean ≠ .nan := by
    intro y hy
    obtain ⟨_, _, _, h⟩ := hfin y hy
    rw [h]; simp
  rw [formatColumn_eq sortAbs o metric _ hp hn, pyAssert_bind, if_pos, hm]
  · rw [pure_eq_ok, ok_bind]
    rw [mapM_error _ above x below .valueError]
    · rfl
    · intro y hy
      obtain ⟨⟨t, ht⟩, u, hu⟩ := habove y hy
      exact ⟨(t, u), by rw [ht, ok_bind, hu, ok_bind]; rfl⟩
    · have hv := validClips_limits (o.crapMin metric) (o.crapMax metric)
      rw [hx] at hlo hhi ⊢
      rw [(printEstimate_fin n c e x.err 0 _ _ o.nff hv hhi hlo n c (e + 0)
        (scaleb_exact 0 n c e hc)).1 (by omega)]
      rfl
  · unfold decimalAllFinite
    rw [List.all_eq_true]
    intro d hd
    obtain ⟨y, hy, rfl⟩ := List.mem_map.mp hd
    classical
    obtain ⟨_, _, _, h⟩ := hfin y (List.mem_of_mem_filter hy)
    rw [h]; rfl

/-- C21, concrete: 1.2E+3 cannot be shown without a shift; with modulus 1 it can. -/
example : formatColumn (κ := Nat) id {} 0 [⟨.fin false 12 2, .fin false 3 2, .nan⟩] = .error .valueError ∧
    formatColumn (κ := Nat) id { crapMax := fun _ => some 2 } 0 [⟨.inf false, .nan, .nan⟩] =
      .ok (0, [(">100".toList, "nan".toList)]) := by decide +kernel

end Mlp.Props
