import Verif.Props.Export

/-! # Property C118: when `just_format_it` returns a text -/

namespace Mlp.Props
open Mlp Spec Sciprint Lemmas

/-- A converted cell that can be printed in a column with limits `10^kmax` and `-10^kmin`: the estimate is a number, it is
infinite only beyond a limit, and without a shift the last digit of an estimate within the limits is not left of the
units. -/
def CellPrints (shiftMod kmin kmax : Option Int) (r : DecCell) : Prop :=
  r.mean ≠ .nan ∧ (r.mean = .inf false → kmax ≠ none) ∧ (r.mean = .inf true → kmin ≠ none) ∧
  (shiftMod = none → ∀ n c e, r.mean = .fin n c e → (∀ k, kmax = some k → sval n c e ≤ 10 ^ k) →
    (∀ k, kmin = some k → -(10 ^ k) ≤ sval n c e) → e ≤ 0)

theorem levels_mem {κ : Type} [LinearOrder κ] (m : κ) (l : List κ) : m ∈ levels l ↔ m ∈ l := by
  unfold levels
  rw [(List.perm_insertionSort _ _).mem_iff, List.mem_dedup]

theorem f2_left {α β : Type} {R : α → β → Prop} {l : List α} {r : List β} (h : List.Forall₂ R l r) :
    ∀ a ∈ l, ∃ b ∈ r, R a b := by
  induction h with
  | nil => simp
  | cons h _ ih =>
    intro a ha
    rcases List.mem_cons.mp ha with rfl | ha
    · exact ⟨_, by simp, h⟩
    · obtain ⟨b, hb, h'⟩ := ih a ha
      exact ⟨b, by simp [hb], h'⟩

theorem unitsLen_ne {c : Char} {s : Str} (h1 : c ≠ '.') (h2 : c ≠ '(') : unitsLen (c :: s) ≠ 0 := by
  unfold unitsLen
  split
  · rw [splitAt.eq_def]; simp [h1]
  · rw [splitAt.eq_def]; simp [h2]

theorem unitsLen_num {m : Str} (h : NumShape m) (t : Str) : unitsLen (m ++ t) ≠ 0 := by
  obtain ⟨sg, ip, fr, rfl, hsg, ⟨hd, gs, h1, -, h3, -, rfl⟩, -⟩ := h
  rcases hsg with rfl | rfl
  · cases hd with
    | nil => simp at h1
    | cons a l =>
      have ha : IsDigit a := h3 a (by simp)
      simp only [List.nil_append, List.cons_append]
      exact unitsLen_ne (by rintro rfl; revert ha; unfold IsDigit; decide)
        (by rintro rfl; revert ha; unfold IsDigit; decide)
  · simp only [List.cons_append]
    exact unitsLen_ne (by decide) (by decide)

/-- The pair made by `decimalize` can be printed. -/
theorem pairOk_of {o : DecimalizeOpts} {lim : Option Int} {x : FpCell} {r : DecCell} (hd : o.defaultDigits ≤ 28)
    (h : decimalizeCell o lim x = .ok r) {n : Bool} {c : Nat} {e : Int} (hm : r.mean = .fin n c e) :
    PairOk (r.mean, r.err) := by
  obtain ⟨h1, eb0, he, hnn, herr, hmean, -, -⟩ := decimalizeCell_ok h
  have hc : c < 10 ^ 28 ∧ ∀ nb cb eb, r.err = .fin nb cb eb → cb ≠ 0 → eb = e := by
    unfold cellMean at hmean
    split at hmean
    · rename_i hf
      cases hre : r.err with
      | nan => rw [hre] at hf; cases hf
      | inf _ => rw [hre] at hf; cases hf
      | fin nb cb eb =>
        rw [hre, hm] at hmean
        cases hof : Dec.ofFloat x.mean with
        | nan => rw [hof] at hmean; simp [Dec.quantize] at hmean
        | inf _ => rw [hof] at hmean; simp [Dec.quantize] at hmean
        | fin n2 c2 e2 =>
          rw [hof, quantize_fin] at hmean
          split at hmean
          · cases hmean
          · rename_i hlt
            cases hmean
            exact ⟨not_le.mp hlt, fun nb' cb' eb' hh _ => by cases hh; rfl⟩
    · rename_i hf
      refine ⟨?_, fun nb cb eb hre hcb => ?_⟩
      · rw [createDecimal_eq, hm] at hmean
        split at hmean
        · rename_i hd1
          injection hmean with hmean
          cases hof : Dec.ofFloat x.mean with
          | nan => rw [hof] at hmean; cases hmean
          | inf _ => rw [hof] at hmean; cases hmean
          | fin n2 c2 e2 =>
            rw [hof, pos_fin] at hmean
            obtain ⟨c', e', hfix, hlt, -⟩ := fix_halfUp o.defaultDigits hd1 (if c2 = 0 then false else n2) c2 e2
            rw [hfix] at hmean
            cases hmean
            exact lt_of_lt_of_le hlt (Nat.pow_le_pow_right (by norm_num) hd)
        · cases hmean
      · rw [hre] at hf
        simp [Dec.isFinite, Dec.isZero, hcb] at hf
  rw [hm]
  cases hre : r.err with
  | nan => exact hc.1
  | inf _ => exact hc.1
  | fin nb cb eb =>
    refine ⟨hc.1, ?_⟩
    by_cases hcb : cb = 0
    · exact .inl hcb
    · refine .inr ⟨?_, hc.2 nb cb eb hre hcb⟩
      have hclip : eb0 = .fin nb cb eb := by
        rcases clipErr_cases lim eb0 with h2 | h2
        · rw [← h2, ← herr, hre]
        · rw [h2, hre] at herr; cases herr
      rw [hclip] at hnn
      have hnn' : 0 ≤ sval nb cb eb := by simpa [Dec.isNan, leNum_zero_fin] using hnn
      cases nb with
      | false => rfl
      | true =>
        rw [sval_neg] at hnn'
        have := sval_nonneg cb eb
        exact absurd ((sval_eq_zero false cb eb).mp (by linarith)) hcb

/-- The p-value made by `decimalize` is printed, with the last place asked for. -/
theorem pval_prints {o : DecimalizeOpts} {lim : Option Int} {x : FpCell} {r : DecCell}
    (h : decimalizeCell o lim x = .ok r) (nff : NonFiniteFmt) :
    (∃ t, printPval r.pval nff = .ok t) ∧ ∀ n c e, r.pval = .fin n c e → e = -(o.pvalDigits : Int) := by
  obtain ⟨-, -, -, -, -, -, hq, hp⟩ := decimalizeCell_ok h
  cases hof : Dec.ofFloat x.pval with
  | nan =>
    rw [hof] at hq
    have : r.pval = .nan := by simpa [Dec.quantize, eq_comm] using hq
    rw [this]
    exact ⟨⟨_, rfl⟩, fun n c e h => by cases h⟩
  | inf _ => rw [hof] at hq; simp [Dec.quantize] at hq
  | fin n2 c2 e2 =>
    rw [hof, quantize_fin] at hq
    split at hq
    · cases hq
    · injection hq with hq
      rw [← hq] at hp ⊢
      refine ⟨?_, fun n c e h => by cases h; rfl⟩
      generalize rescaled .ceiling n2 c2 e2 (-(o.pvalDigits : Int)) = c' at *
      obtain ⟨k1, k2, k3, k4⟩ := printPval_fin n2 c' (-(o.pvalDigits : Int)) nff
      simp only [Dec.isNan, Bool.false_or, Bool.and_eq_true, leNum_zero_fin] at hp
      have h1 : sval n2 c' (-(o.pvalDigits : Int)) ≤ 1 := by
        have := (leNum_iff _ _).mp hp.2
        simpa [DLe, Dec.ofNat, sval] using this
      rcases le_or_gt (sval n2 c' (-(o.pvalDigits : Int))) (10 ^ (-(o.pvalDigits : Int))) with h2 | h2
      · exact ⟨_, k2 hp.1 h2⟩
      · exact ⟨_, k3 h2 h1⟩

/-- One column: formatted exactly when it is not empty, the modulus is at least 1 and every cell can be printed. -/
theorem column_formats {sortAbs : List Int → List Int} (hsort : SortsByAbs sortAbs) (o : FormatOpts Str) (metric : Str)
    (lim : Option Int) (col : List DecCell) (hcol : ∀ r ∈ col, ∃ x, decimalizeCell {} lim x = .ok r) :
    (∃ out, formatColumn sortAbs { o with pad := true } metric col = .ok out) ↔
      col ≠ [] ∧ (∀ m, o.shiftMod = some m → 1 ≤ m) ∧
      ∀ r ∈ col, CellPrints o.shiftMod (o.crapMin metric) (o.crapMax metric) r := by
  have hv := validClips_limits (o.crapMin metric) (o.crapMax metric)
  have hmem : ∀ r, r ∈ unclipped (lowClip (o.crapMin metric)) (highClip (o.crapMax metric)) col ↔
      r ∈ col ∧ DLe (lowClip (o.crapMin metric)) r.mean ∧ DLe r.mean (highClip (o.crapMax metric)) := by
    intro r; unfold unclipped; simp
  have hin : ∀ n c e, (DLe (lowClip (o.crapMin metric)) (.fin n c e) ∧ DLe (.fin n c e) (highClip (o.crapMax metric))) ↔
      (∀ k, o.crapMax metric = some k → sval n c e ≤ 10 ^ k) ∧
        (∀ k, o.crapMin metric = some k → -(10 ^ k) ≤ sval n c e) := by
    intro n c e
    rw [and_comm]
    refine and_congr ?_ ?_
    · cases o.crapMax metric <;> simp [highClip, DLe, sval]
    · cases o.crapMin metric <;> simp [lowClip, DLe, sval]
  constructor
  · rintro ⟨⟨s, rows⟩, h⟩
    obtain ⟨-, h2, h3, h4, ⟨ests, h5, -, h6⟩, -⟩ := (C20_format_column _ _ _ _ _ _).mp h
    simp only [] at h3 h4 h5 h6
    refine ⟨?_, fun m hm => ?_, fun r hr => ⟨h2 r hr, fun hi hk => ?_, fun hi hk => ?_, fun hs n c e hme hmx hmn => ?_⟩⟩
    · rintro rfl
      cases h5
      have := h6 trivial
      rw [(C16_padding_rejects ' ').1] at this
      cases this
    · unfold ColShift at h4
      rw [hm] at h4
      by_contra hcon
      simp only [] at h4
      rw [C15_find_shift_rejects sortAbs _ _ m (.inr (.inr (not_le.mp hcon)))] at h4
      cases h4
    · obtain ⟨n, c, e, hf⟩ := h3 r ((hmem r).mpr ⟨hr, by
        rw [hi, hk]; cases o.crapMin metric <;> simp [lowClip, highClip, DLe]⟩)
      rw [hi] at hf; cases hf
    · obtain ⟨n, c, e, hf⟩ := h3 r ((hmem r).mpr ⟨hr, by
        rw [hi, hk]; cases o.crapMax metric <;> simp [lowClip, highClip, DLe]⟩)
      rw [hi] at hf; cases hf
    · have hs0 : s = 0 := by unfold ColShift at h4; rw [hs] at h4; exact h4
      subst hs0
      obtain ⟨t, -, ht⟩ := f2_left h5 r hr
      obtain ⟨x, hx⟩ := hcol r hr
      have hp := pairOk_of (by decide) hx hme
      rw [hme] at hp ht
      obtain ⟨n', c', e', he, hc, -⟩ := pairOk_errFits hp
      cases he
      by_contra hpos
      obtain ⟨ha, hb⟩ := (hin n c e).mpr ⟨hmx, hmn⟩
      rw [(printEstimate_fin n c e r.err 0 _ _ o.nff hv hb ha n c (e + 0) (scaleb_exact 0 n c e hc)).1 (by omega)] at ht
      cases ht
  · rintro ⟨hne, hmod, hcell⟩
    have hkept : ∀ r ∈ unclipped (lowClip (o.crapMin metric)) (highClip (o.crapMax metric)) col,
        ∃ n c e, r.mean = .fin n c e := by
      intro r hr
      obtain ⟨hr, ha, hb⟩ := (hmem r).mp hr
      obtain ⟨h1, h2, h3, -⟩ := hcell r hr
      cases hm : r.mean with
      | nan => exact absurd hm h1
      | fin n c e => exact ⟨n, c, e, rfl⟩
      | inf b =>
        exfalso
        rw [hm] at ha hb
        cases b with
        | false =>
          obtain ⟨k, hk⟩ := Option.ne_none_iff_exists'.mp (h2 hm)
          rw [hk] at hb; simp [highClip, DLe] at hb
        | true =>
          obtain ⟨k, hk⟩ := Option.ne_none_iff_exists'.mp (h3 hm)
          rw [hk] at ha; simp [lowClip, DLe] at ha
    -- the shift
    obtain ⟨s, hs, hsp⟩ : ∃ s, ColShift sortAbs o.shiftMod
        (unclipped (lowClip (o.crapMin metric)) (highClip (o.crapMax metric)) col) s ∧
        ∀ r ∈ unclipped (lowClip (o.crapMin metric)) (highClip (o.crapMax metric)) col,
          ∀ n c e, r.mean = .fin n c e → e + s ≤ 0 := by
      cases hsm : o.shiftMod with
      | none =>
        refine ⟨0, rfl, fun r hr n c e hme => ?_⟩
        obtain ⟨hr, ha, hb⟩ := (hmem r).mp hr
        rw [hme] at ha hb
        obtain ⟨h1, h2⟩ := (hin n c e).mp ⟨ha, hb⟩
        have := (hcell r hr).2.2.2 hsm n c e hme h1 h2
        omega
      | some m =>
        have hok : ∀ r ∈ unclipped (lowClip (o.crapMin metric)) (highClip (o.crapMax metric)) col,
            PairOk (r.mean, r.err) := by
          intro r hr
          obtain ⟨n, c, e, hme⟩ := hkept r hr
          obtain ⟨x, hx⟩ := hcol r ((hmem r).mp hr).1
          exact pairOk_of (by decide) hx hme
        obtain ⟨s, hs, -, hp⟩ := C15_chosen_shift_prints sortAbs hsort _ _ m (hmod m hsm) (by simp)
          (by rw [List.zip_map']; intro p hp; obtain ⟨r, hr, rfl⟩ := List.mem_map.mp hp; exact hok r hr :
            ∀ p ∈ ((unclipped (lowClip (o.crapMin metric)) (highClip (o.crapMax metric)) col).map fun x => x.mean).zip
              ((unclipped (lowClip (o.crapMin metric)) (highClip (o.crapMax metric)) col).map fun x => x.err), PairOk p)
        refine ⟨s, hs, fun r hr n c e hme => ?_⟩
        rw [List.zip_map'] at hp
        obtain ⟨t, ht⟩ := hp (r.mean, r.err) (List.mem_map.mpr ⟨r, hr, rfl⟩)
        have hp2 := hok r hr
        simp only [] at ht
        rw [hme] at ht hp2
        obtain ⟨n', c', e', he, hc, -⟩ := pairOk_errFits hp2
        cases he
        by_contra hpos
        rw [(printEstimate_fin n c e r.err s _ _ _ ⟨.inl rfl, .inl rfl, trivial⟩ trivial trivial n c (e + s)
          (scaleb_exact s n c e hc)).1 (by omega)] at ht
        cases ht
    -- every cell prints
    have hest : ∀ r ∈ col, ∃ t, printEstimate r.mean r.err s (lowClip (o.crapMin metric))
        (highClip (o.crapMax metric)) o.nff = .ok t ∧ unitsLen t ≠ 0 := by
      intro r hr
      rcases clip_cases r.mean _ _ hv with h1 | h1 | h1 | ⟨hb, ha⟩
      · exact ⟨_, printEstimate_above _ _ _ _ _ _ hv h1, unitsLen_ne (by decide) (by decide)⟩
      · exact ⟨_, printEstimate_below _ _ _ _ _ _ hv h1, unitsLen_ne (by decide) (by decide)⟩
      · exact absurd h1 (hcell r hr).1
      · have hrk := (hmem r).mpr ⟨hr, ha, hb⟩
        obtain ⟨n, c, e, hme⟩ := hkept r hrk
        obtain ⟨x, hx⟩ := hcol r hr
        have hp := pairOk_of (by decide) hx hme
        have hle := hsp r hrk n c e hme
        rw [hme] at hp ha hb ⊢
        obtain ⟨n', c', e', he, hc, hf⟩ := pairOk_errFits hp
        cases he
        refine ⟨_, (printEstimate_fin n c e r.err s _ _ o.nff hv hb ha n c (e + s) (scaleb_exact s n c e hc)).2.1 hle hf, ?_⟩
        unfold joinEst
        split
        · simp only [List.append_assoc]; exact unitsLen_num (genFmt_shape _ _ _) _
        · have := unitsLen_num (genFmt_shape n c (e + s)) []
          rwa [List.append_nil] at this
    have hpv : ∀ r ∈ col, ∃ t, printPval r.pval o.nff = .ok t := fun r hr => by
      obtain ⟨x, hx⟩ := hcol r hr
      exact (pval_prints hx o.nff).1
    choose! f hf hfu using hest
    choose! g hg using hpv
    obtain ⟨out, w, hout, hal, -⟩ := C16_padding_aligns (col.map f) ' ' (by simpa using hne) (by
      intro t ht; obtain ⟨r, hr, rfl⟩ := List.mem_map.mp ht; exact hfu r hr)
    have hlen : out.length = col.length := by simpa using hal.length_eq.symm
    refine ⟨(s, out.zip (col.map g)), (C20_format_column _ _ _ _ _ _).mpr ⟨?_, fun r hr => (hcell r hr).1, hkept, hs,
      ⟨col.map f, ?_, fun h => absurd h (by simp), fun _ => ?_⟩, ?_⟩⟩
    · intro a ha b hb n c e n' c' e' h1 h2
      obtain ⟨x, hx⟩ := hcol a ha
      obtain ⟨y, hy⟩ := hcol b hb
      rw [(pval_prints hx o.nff).2 n c e h1, (pval_prints hy o.nff).2 n' c' e' h2]
    · rw [List.forall₂_map_right_iff, List.forall₂_same]
      exact hf
    · rw [List.map_fst_zip (by simp [hlen])]; exact hout
    · rw [List.map_snd_zip (by simp [hlen]), List.forall₂_map_right_iff, List.forall₂_same]
      exact hg

/-- The headers never fail on the columns of a formatted table. -/
theorem tableToStr_ok (cols : List (Str × Int × List (Str × Str))) (ud : Str → Option Str) (usePrefix useTex : Bool) :
    ∃ st, tableToStr cols ud usePrefix useTex = .ok st := by
  unfold tableToStr
  have : ∃ hd, adjustHeaders (cols.flatMap fun mc => [(mc.1, FmtStat.est), (mc.1, FmtStat.pval)])
      (fun m => (cols.find? fun mc => decide (mc.1 = m)).map fun mc => mc.2.1) ud usePrefix useTex = .ok hd := by
    have key : ∀ el ∈ (cols.flatMap fun mc => [(mc.1, FmtStat.est), (mc.1, FmtStat.pval)]), ∃ h, adjustHeader
        (fun m => (cols.find? fun mc => decide (mc.1 = m)).map fun mc => mc.2.1) ud usePrefix useTex el = .ok h := by
      intro el hel
      obtain ⟨mc, hmc, hel⟩ := List.mem_flatMap.mp hel
      have h1 : el.1 = mc.1 := by
        simp only [List.mem_cons, List.not_mem_nil, or_false] at hel
        rcases hel with rfl | rfl <;> rfl
      obtain ⟨y, hy⟩ : ∃ y, (cols.find? fun mc => decide (mc.1 = el.1)) = some y := by
        cases hfind : cols.find? fun mc => decide (mc.1 = el.1) with
        | some y => exact ⟨y, rfl⟩
        | none => exact absurd (by simp [h1]) (List.find?_eq_none.mp hfind mc hmc)
      unfold adjustHeader
      simp only [hy, Option.map_some]
      exact ⟨_, rfl⟩
    choose! h hh using key
    exact ⟨_, (C18_headers _ _ _ _ _ _).mpr (by
      rw [← List.map_id (cols.flatMap _), List.forall₂_map_left_iff]
      exact (List.forall₂_map_right_iff (f := h)).mpr (List.forall₂_same.mpr fun el hel => hh el hel))⟩
  obtain ⟨hd, hh⟩ := this
  simp only [hh, ok_bind]
  exact ⟨_, rfl⟩

/-- **C118, exactly when a table is formatted.**  `just_format_it` returns a text, TeX or plain, exactly when there is at
least one method and one metric, the shift modulus, if given, is at least 1, and every cell is converted by `decimalize`
to a printable cell. -/
theorem C118_criterion {sortAbs : List Int → List Int} (hsort : SortsByAbs sortAbs) (ebLimit : Str → Option Int)
    (o : FormatOpts Str) (ud : Str → Option Str) (usePrefix useTex : Bool) (t : Table Str FpCell) :
    (∃ text, justFormatItText sortAbs ebLimit o ud usePrefix useTex t = .ok text) ↔
      t.methods ≠ [] ∧ t.metrics ≠ [] ∧ (∀ m, o.shiftMod = some m → 1 ≤ m) ∧
      ∀ metric ∈ t.metrics, ∀ method ∈ t.methods, ∃ r,
        decimalizeCell { errDigits := 2, pvalDigits := 4, defaultDigits := 5 } (ebLimit metric) (t.cell method metric) = .ok r ∧
        CellPrints o.shiftMod (o.crapMin metric) (o.crapMax metric) r := by
  have hlev : ∀ m, m ∈ levels t.metrics ↔ m ∈ t.metrics := fun m => levels_mem m _
  have h0 : (∃ text, justFormatItText sortAbs ebLimit o ud usePrefix useTex t = .ok text) ↔
      ∃ st, justFormatIt sortAbs ebLimit o ud usePrefix useTex t = .ok st := by
    rw [justFormatItText_eq]
    cases justFormatIt sortAbs ebLimit o ud usePrefix useTex t with
    | error e => simp [Except.map]
    | ok st => simp [Except.map]
  rw [h0]
  obtain ⟨-, hdec, hdec2⟩ := C10_table {} ebLimit t
  have hcols : ∀ d, decimalize {} ebLimit t = .ok d →
      ((∃ cols, formatCols sortAbs { o with pad := true } (d.map fun mc => (mc.1, mc.2.map fun x => x.2)) = .ok cols) ↔
        ∀ mc ∈ d, ∃ out, formatColumn sortAbs { o with pad := true } mc.1 (mc.2.map fun x => x.2) = .ok out) := by
    intro d hd
    unfold formatCols
    constructor
    · rintro ⟨cols, h⟩ mc hmc
      rw [mapM_ok_iff, List.forall₂_map_left_iff] at h
      obtain ⟨b, -, hb⟩ := f2_left h mc hmc
      rw [bind_ok_iff] at hb
      obtain ⟨r, hr, -⟩ := hb
      exact ⟨r, hr⟩
    · intro h
      choose! g hg using h
      refine ⟨d.map fun mc => (mc.1, (g mc).1, (g mc).2), ?_⟩
      rw [mapM_ok_iff, List.forall₂_map_left_iff, List.forall₂_map_right_iff, List.forall₂_same]
      intro mc hmc
      rw [hg mc hmc]; rfl
  constructor
  · rintro ⟨st, h⟩
    unfold justFormatIt at h
    rw [bind_ok_iff] at h
    obtain ⟨d, hd, h⟩ := h
    rw [pyAssert_bind] at h
    split at h
    swap
    · cases h
    rename_i hm1
    rw [pyAssert_bind] at h
    split at h
    swap
    · cases h
    rename_i hm2
    rw [bind_ok_iff] at h
    obtain ⟨cols, hc, -⟩ := h
    have hc' := (hcols d hd).mp ⟨cols, hc⟩
    obtain ⟨hd1, hd2⟩ := hdec2 d hd
    have hper : ∀ mc ∈ d, (∀ m, o.shiftMod = some m → 1 ≤ m) ∧ ∀ method ∈ t.methods, ∃ r,
        decimalizeCell { errDigits := 2, pvalDigits := 4, defaultDigits := 5 } (ebLimit mc.1) (t.cell method mc.1) = .ok r ∧
        CellPrints o.shiftMod (o.crapMin mc.1) (o.crapMax mc.1) r := by
      intro mc hmc
      have hf := hd2 mc hmc
      obtain ⟨-, h2, h3⟩ := (column_formats hsort o mc.1 (ebLimit mc.1) _ (by
        intro r hr
        obtain ⟨x, hx, rfl⟩ := List.mem_map.mp hr
        obtain ⟨a, -, ha⟩ := f2_left hf.flip x hx
        exact ⟨_, ha.2⟩)).mp (hc' mc hmc)
      refine ⟨h2, fun method hmeth => ?_⟩
      obtain ⟨x, hx, -, hx2⟩ := f2_left hf method hmeth
      exact ⟨x.2, hx2, h3 _ (List.mem_map.mpr ⟨x, hx, rfl⟩)⟩
    have hne2 : t.metrics ≠ [] := by rintro h; simp [h] at hm2
    have hget : ∀ metric ∈ t.metrics, ∃ mc ∈ d, mc.1 = metric := by
      intro metric hm
      rw [← hlev, ← hd1] at hm
      obtain ⟨mc, hmc, rfl⟩ := List.mem_map.mp hm
      exact ⟨mc, hmc, rfl⟩
    refine ⟨by rintro h; simp [h] at hm1, hne2, ?_, ?_⟩
    · obtain ⟨metric, hmem⟩ := List.exists_mem_of_ne_nil _ hne2
      obtain ⟨mc, hmc, -⟩ := hget metric hmem
      exact (hper mc hmc).1
    · intro metric hm
      obtain ⟨mc, hmc, rfl⟩ := hget metric hm
      exact (hper mc hmc).2
  · rintro ⟨h1, h2, h3, h4⟩
    obtain ⟨d, hd⟩ := hdec.mpr ⟨by decide, fun metric hm method hmeth => by
      obtain ⟨r, hr, -⟩ := h4 metric hm method hmeth; exact ⟨r, hr⟩⟩
    obtain ⟨hd1, hd2⟩ := hdec2 d hd
    obtain ⟨cols, hc⟩ := (hcols d hd).mpr (by
      intro mc hmc
      have hf := hd2 mc hmc
      have hmm : mc.1 ∈ t.metrics := by rw [← hlev, ← hd1]; exact List.mem_map.mpr ⟨mc, hmc, rfl⟩
      refine (column_formats hsort o mc.1 (ebLimit mc.1) _ (by
        intro r hr
        obtain ⟨x, hx, rfl⟩ := List.mem_map.mp hr
        obtain ⟨a, -, ha⟩ := f2_left hf.flip x hx
        exact ⟨_, ha.2⟩)).mpr ⟨?_, h3, ?_⟩
      · intro hnil
        have := hf.length_eq
        rw [List.map_eq_nil_iff.mp hnil] at this
        exact h1 (List.length_eq_zero_iff.mp this)
      · intro r hr
        obtain ⟨x, hx, rfl⟩ := List.mem_map.mp hr
        obtain ⟨a, ham, ha⟩ := f2_left hf.flip x hx
        obtain ⟨r', hr', hp⟩ := h4 mc.1 hmm a ham
        have hr2 := ha.2
        rw [hr'] at hr2
        cases hr2
        exact hp)
    obtain ⟨st, hst⟩ := tableToStr_ok cols ud usePrefix useTex
    refine ⟨st, ?_⟩
    unfold justFormatIt
    rw [hd, ok_bind, pyAssert_bind, if_pos (by simpa [List.length_pos_iff] using h1), pyAssert_bind,
      if_pos (by simpa [List.length_pos_iff] using h2), hc, ok_bind, hst]

end Mlp.Props
