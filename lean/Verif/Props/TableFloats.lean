import Verif.Props.PrintedCoverage

/-! # C137: the tables computed in floating point hold floats -/

namespace Mlp.Props
open Mlp Mlp.Sciprint Mlp.Paper Mlp.PaperR Mlp.PerfR Mlp.BootR Mlp.Boot Mlp.Spec Mlp.Lemmas Mlp.Round

/-- The number, if it is one, is already rounded. -/
def IsRounded (rnd : ℝ → ℝ) (v : Flt ℝ) : Prop := ∀ x : ℝ, v = .fin x → rnd x = x

section
variable {rnd : ℝ → ℝ} (hr : MonoRounding rnd)
include hr

theorem isRounded_rF (v : Flt ℝ) : IsRounded rnd (rF rnd v) := by
  intro x hx
  cases v with
  | fin y =>
    simp only [rF, Flt.fin.injEq] at hx
    rw [← hx, hr.idem]
  | _ => simp [rF] at hx

theorem isRounded_one : IsRounded rnd (.fin 1) := by
  intro x hx
  simp only [Flt.fin.injEq] at hx
  rw [← hx, hr.one]

theorem isRounded_zero : IsRounded rnd (.fin 0) := by
  intro x hx
  simp only [Flt.fin.injEq] at hx
  rw [← hx, hr.zero]

theorem isRounded_rnd (y : ℝ) : IsRounded rnd (.fin (rnd y)) := isRounded_rF hr (.fin y)

omit hr in
theorem isRounded_clip {a lo hi : Flt ℝ} (ha : IsRounded rnd a) (hl : IsRounded rnd lo) (hh : IsRounded rnd hi) :
    IsRounded rnd (a.clip lo hi) := by
  unfold Flt.clip
  split
  · exact hl
  · split
    · exact hh
    · exact ha

omit hr in
theorem isRounded_max {a b : Flt ℝ} (ha : IsRounded rnd a) (hb : IsRounded rnd b) : IsRounded rnd (max a b) := by
  rcases max_choice a b with h | h <;> rw [h] <;> assumption

omit hr in
theorem isRounded_fmax {a b : Flt ℝ} (ha : IsRounded rnd a) (hb : IsRounded rnd b) : IsRounded rnd (Flt.fmax a b) := by
  unfold Flt.fmax
  split
  · exact hb
  · split
    · exact ha
    · exact isRounded_max ha hb

omit hr in
theorem isRounded_minimum {a b : Flt ℝ} (ha : IsRounded rnd a) (hb : IsRounded rnd b) : IsRounded rnd (Flt.minimum a b) := by
  unfold Flt.minimum
  split
  · intro x hx; cases hx
  · rcases min_choice a b with h | h <;> rw [h] <;> assumption

omit hr in
theorem foldl_add_fin {l : List (Flt ℝ)} {acc : Flt ℝ} {y : ℝ} (h : l.foldl Flt.add acc = .fin y) :
    (∃ z, acc = .fin z) ∧ l.all (fun v => v.isFinite) = true := by
  induction l generalizing acc with
  | nil => exact ⟨⟨y, h⟩, rfl⟩
  | cons x l ih =>
    obtain ⟨⟨z, hz⟩, hl⟩ := ih h
    rw [List.all_cons, hl, Bool.and_true]
    cases acc <;> cases x <;> simp [Flt.add, Flt.isFinite] at hz ⊢

theorem isRounded_meanFR {L : Lib ℝ} (hL : L.rnd = rnd) (x : List (Flt ℝ)) : IsRounded rnd (meanFR L x) := by
  subst hL
  unfold meanFR
  split
  · exact isRounded_rF hr _
  · rename_i hf
    intro y hy
    exfalso
    apply hf
    unfold Flt.mean at hy
    cases hs : Flt.sum x with
    | fin s => exact (foldl_add_fin hs).2
    | nan => rw [hs] at hy; simp [Flt.div] at hy
    | pinf => rw [hs] at hy; simp only [Flt.div] at hy; split at hy <;> cases hy
    | ninf => rw [hs] at hy; simp only [Flt.div] at hy; split at hy <;> cases hy

theorem isRounded_errorBar {boot : List (Flt ℝ)} {original confidence v : Flt ℝ} (h : errorBarR rnd boot original confidence = .ok v) :
    IsRounded rnd v := by
  unfold errorBarR at h
  simp only [bind_ok_iff] at h
  obtain ⟨p, -, _, -, _, -, h⟩ := h
  cases h
  exact isRounded_fmax (isRounded_rF hr _) (isRounded_rF hr _)

theorem isRounded_significance {boot : List (Flt ℝ)} {ref : Ref ℝ} {v : Flt ℝ} (h : significanceR rnd boot ref = .ok v) :
    IsRounded rnd v := by
  unfold significanceR at h
  split at h
  · cases h
  · simp only [assert_bind_ok] at h
    obtain ⟨-, -, h⟩ := h
    cases h
    exact isRounded_minimum (isRounded_one hr) (isRounded_rF hr _)
end

section
variable {L : Lib ℝ} (hr : MonoRounding L.rnd)
include hr

theorem isRounded_tTest {x : List (Flt ℝ)} {v : Flt ℝ} (h : tTestR L x = .ok v) : IsRounded L.rnd v := by
  unfold tTestR at h
  rw [assert_bind_ok] at h
  obtain ⟨-, h⟩ := h
  split at h
  · cases h; exact isRounded_one hr
  · simp only [bind_ok_iff] at h
    obtain ⟨p, hp, _, -, h⟩ := h
    cases h
    split at hp
    · simp only [bind_ok_iff] at hp
      obtain ⟨_, -, hp⟩ := hp
      cases hp
      split
      · exact isRounded_one hr
      · exact isRounded_zero hr
    · cases hp
      exact isRounded_rF hr _

theorem isRounded_tEB {x : List (Flt ℝ)} {c v : Flt ℝ} (h : tEBR L x c = .ok v) : IsRounded L.rnd v := by
  unfold tEBR at h
  simp only [assert_bind_ok] at h
  obtain ⟨-, -, h⟩ := h
  split at h
  · cases h; intro y hy; cases hy
  · simp only [assert_bind_ok] at h
    obtain ⟨-, -, h⟩ := h
    cases h
    exact isRounded_rnd hr _

theorem isRounded_bernsteinTest {x : List (Flt ℝ)} {lo hi v : Flt ℝ} (h : bernsteinTestR L x lo hi = .ok v) : IsRounded L.rnd v := by
  unfold bernsteinTestR at h
  simp only [assert_bind_ok] at h
  obtain ⟨-, -, -, h⟩ := h
  split at h
  · cases h; exact isRounded_one hr
  · split at h
    · split at h
      · cases h; exact isRounded_one hr
      · split at h
        · cases h
        · simp only [assert_bind_ok] at h
          obtain ⟨-, -, -, h⟩ := h
          cases h
          intro y hy
          simp only [Flt.fin.injEq] at hy
          subst hy
          rcases min_choice (1 : ℝ) (L.rnd (3 * L.exp (-L.rnd (max _ _ * max _ _)))) with h | h <;> rw [h]
          · exact hr.one
          · exact hr.idem _
    · cases h; exact isRounded_one hr

theorem isRounded_bernsteinEB {x : List (Flt ℝ)} {lo hi c v : Flt ℝ} (h : bernsteinEBR L x lo hi c = .ok v) : IsRounded L.rnd v := by
  unfold bernsteinEBR at h
  simp only [assert_bind_ok] at h
  obtain ⟨-, -, -, -, h⟩ := h
  split at h
  · cases h; exact isRounded_rF hr _
  · simp only [assert_bind_ok] at h
    obtain ⟨-, h⟩ := h
    cases h
    exact isRounded_rF hr _

theorem isRounded_boot {x : List (Flt ℝ)} {c : Flt ℝ} {nBoot : Nat} {counts : List (List Nat)} {a b d : Bool}
    {r : Flt ℝ × Flt ℝ × (Flt ℝ × Flt ℝ)} (h : bootEBTestR L x c nBoot counts a b d = .ok r) :
    IsRounded L.rnd r.1 ∧ IsRounded L.rnd r.2.1 := by
  have hinf : IsRounded L.rnd (.pinf : Flt ℝ) := by intro y hy; cases hy
  unfold bootEBTestR at h
  rw [assert_bind_ok] at h
  obtain ⟨-, h⟩ := h
  split at h
  · cases h
    exact ⟨hinf, isRounded_one hr⟩
  · simp only [bind_ok_iff] at h
    obtain ⟨w, -, p, hp, e, he, ci, -, h⟩ := h
    cases h
    constructor
    · split at he
      · exact isRounded_errorBar hr he
      · cases he; exact hinf
    · split at hp
      · exact isRounded_significance hr hp
      · cases hp; exact isRounded_one hr

theorem isRounded_clipEB {mu EB lo hi v : Flt ℝ} (hE : IsRounded L.rnd EB) (h : clipEBR L mu EB lo hi (.fin 0) = .ok v) : IsRounded L.rnd v := by
  unfold clipEBR at h
  simp only [assert_bind_ok] at h
  obtain ⟨-, -, h⟩ := h
  split at h
  · cases h
  · split at h
    · cases h
    · rw [assert_bind_ok] at h
      obtain ⟨-, h⟩ := h
      cases h
      exact isRounded_clip hE (isRounded_zero hr) (isRounded_fmax (isRounded_rF hr _) (isRounded_rF hr _))

theorem isRounded_meanEB {x : List (Flt ℝ)} {c lo hi : Flt ℝ} {method : EBMethod} {counts : List (List Nat)} {r : Flt ℝ × Flt ℝ}
    (h : getMeanEBR L x c (.fin 0) lo hi method counts = .ok r) : IsRounded L.rnd r.2 := by
  unfold getMeanEBR at h
  simp only [bind_ok_iff] at h
  obtain ⟨_, -, e, he, mu, -, e', he', h⟩ := h
  cases h
  refine isRounded_clipEB hr ?_ he'
  cases method with
  | t => exact isRounded_tEB hr he
  | bernstein => exact isRounded_bernsteinEB hr he
  | boot =>
    simp only [bootEBR, bind_ok_iff] at he
    obtain ⟨q, hq, _, -, he⟩ := he
    cases he
    exact (isRounded_boot hr hq).1
  | other => cases he

theorem isRounded_test {x : List (Flt ℝ)} {lo hi : Flt ℝ} {method : EBMethod} {counts : List (List Nat)} {v : Flt ℝ}
    (h : getTestR L x lo hi method counts = .ok v) : IsRounded L.rnd v := by
  cases method with
  | t => exact isRounded_tTest hr h
  | bernstein => exact isRounded_bernsteinTest hr h
  | boot =>
    simp only [getTestR, bootTestR, bind_ok_iff] at h
    obtain ⟨q, hq, _, -, h⟩ := h
    cases h
    exact (isRounded_boot hr hq).2
  | other => cases h

theorem isRounded_meanEBTest {x : List (Flt ℝ)} {c lo hi : Flt ℝ} {method : EBMethod} {counts : List (List Nat)}
    {r : Flt ℝ × Flt ℝ × Flt ℝ} (h : getMeanEBTestR L x c (.fin 0) lo hi method counts = .ok r) :
    IsRounded L.rnd r.2.1 ∧ IsRounded L.rnd r.2.2 := by
  unfold getMeanEBTestR at h
  simp only [bind_ok_iff] at h
  obtain ⟨_, -, e, he, mu, -, e', he', h⟩ := h
  cases h
  have key : IsRounded L.rnd e.1 ∧ IsRounded L.rnd e.2 := by
    cases method with
    | t =>
      simp only [bind_ok_iff] at he
      obtain ⟨a, ha, b, hb, he⟩ := he
      cases he
      exact ⟨isRounded_tEB hr ha, isRounded_tTest hr hb⟩
    | bernstein =>
      simp only [bind_ok_iff] at he
      obtain ⟨a, ha, b, hb, he⟩ := he
      cases he
      exact ⟨isRounded_bernsteinEB hr ha, isRounded_bernsteinTest hr hb⟩
    | boot =>
      simp only [bind_ok_iff] at he
      obtain ⟨a, ha, he⟩ := he
      cases he
      exact isRounded_boot hr ha
    | other => cases he
  exact ⟨isRounded_clipEB hr key.1 he', key.2⟩

/-- **C137.**  Every mean, error bar and p-value of a table computed by `loss_summary_table` in floating point is NaN, infinite or a float,
whatever the losses, limits, method and outcome of the bootstrap draws. -/
theorem C137_rounded {tbl : LossTable} {refMethod : Str} {pairwise : Bool} {confidence : Flt ℝ} {methodEB : EBMethod}
    {limits : List (Str × (Flt ℝ × Flt ℝ))} {draws : Str → Str → Draws} {out : List (List (Flt ℝ × Flt ℝ × Flt ℝ))}
    (h : lossSummaryTableR L tbl refMethod pairwise confidence methodEB limits draws = .ok out)
    {metric method : Str} {cell : Flt ℝ × Flt ℝ × Flt ℝ} (hc : SummaryCell tbl out metric method cell) :
    IsRounded L.rnd cell.1 ∧ IsRounded L.rnd cell.2.1 ∧ IsRounded L.rnd cell.2.2 := by
  have hnan : IsRounded L.rnd (.nan : Flt ℝ) := by intro y hy; cases hy
  obtain ⟨i, j, row, h1, h2, h3, h4⟩ := hc
  obtain ⟨-, -, -, h⟩ := summaryR_ok.1 h
  obtain ⟨lo, hi, lr, k1, -, k2, -, -, h⟩ := forall₂_getElem? h h1 h3
  obtain ⟨loss, k3, h⟩ := forall₂_getElem? h h2 h4
  unfold cellOfR at h
  simp only [assert_bind_ok] at h
  obtain ⟨-, -, h⟩ := h
  have hmu := isRounded_meanFR hr rfl loss
  split at h
  · split at h
    · cases h; exact ⟨hmu, hnan, hnan⟩
    · rw [bind_ok_iff] at h
      obtain ⟨r, hr', h⟩ := h
      cases h
      have := isRounded_meanEBTest hr hr'
      exact ⟨hmu, this⟩
  · simp only [bind_ok_iff] at h
    obtain ⟨r, hr', _, -, p, hp, h⟩ := h
    cases h
    refine ⟨hmu, isRounded_meanEB hr hr', ?_⟩
    split at hp
    · cases hp; exact hnan
    · exact isRounded_test hr hp

end

/-! ## Floats and their significands -/

/-- All that is rounded has a binary significand: it is a float as `Decimal` sees it. -/
def Dyadic (rnd : ℝ → ℝ) : Prop := ∀ x, rnd x = x → ∃ n m e, ((fval n m e : ℚ) : ℝ) = x

theorem binary64_dyadic : Dyadic binary64 := by
  intro x hx
  have key : ∀ y : ℝ, 0 < y → ∃ (m : Nat) (e : Int), rnPos 53 y = (m : ℝ) * 2 ^ e := by
    intro y hy
    have hu : 0 < ulp 53 y := by unfold ulp; positivity
    have h0 : 0 ≤ roundEven (y / ulp 53 y) := by
      have : 0 ≤ ⌊y / ulp 53 y⌋ := Int.floor_nonneg.2 (div_nonneg hy.le hu.le)
      unfold roundEven
      split
      · exact this
      · split
        · omega
        · split <;> omega
    refine ⟨(roundEven (y / ulp 53 y)).toNat, Int.log 2 y - (53 : ℕ) + 1, ?_⟩
    have : ((roundEven (y / ulp 53 y)).toNat : ℝ) = (roundEven (y / ulp 53 y) : ℝ) := by
      have := Int.toNat_of_nonneg h0
      exact_mod_cast this
    rw [this]
    rfl
  unfold binary64 rn at hx
  split at hx
  · rename_i h
    obtain ⟨m, e, he⟩ := key x h
    exact ⟨false, m, e, by rw [← hx, he]; simp [fval]⟩
  · split at hx
    · rename_i h
      obtain ⟨m, e, he⟩ := key (-x) (by linarith)
      exact ⟨true, m, e, by rw [← hx, he]; simp [fval]⟩
    · exact ⟨false, 0, 0, by rw [← hx]; simp [fval]⟩

theorem exists_pyFloat {rnd : ℝ → ℝ} (hd : Dyadic rnd) {v : Flt ℝ} (h : IsRounded rnd v) : ∃ x : PyFloat, SameNumber x v := by
  cases v with
  | nan => exact ⟨.nan, trivial⟩
  | pinf => exact ⟨.inf false, trivial⟩
  | ninf => exact ⟨.inf true, trivial⟩
  | fin y =>
    obtain ⟨n, m, e, hm⟩ := hd y (h y rfl)
    exact ⟨.fin n m e, hm⟩

theorem summaryCell_unique {L : Lib ℝ} {tbl : LossTable} {refMethod : Str} {pairwise : Bool} {confidence : Flt ℝ} {methodEB : EBMethod}
    {limits : List (Str × (Flt ℝ × Flt ℝ))} {draws : Str → Str → Draws} {out : List (List (Flt ℝ × Flt ℝ × Flt ℝ))}
    (h : lossSummaryTableR L tbl refMethod pairwise confidence methodEB limits draws = .ok out)
    {metric method : Str} {c c' : Flt ℝ × Flt ℝ × Flt ℝ} (hc : SummaryCell tbl out metric method c) (hc' : SummaryCell tbl out metric method c') :
    c = c' := by
  obtain ⟨i, j, row, h1, h2, h3, h4⟩ := hc
  obtain ⟨i', j', row', h1', h2', h3', h4'⟩ := hc'
  obtain ⟨-, -, -, h⟩ := summaryR_ok.1 h
  obtain ⟨lo, hi, lr, k1, -, k2, -, -, g⟩ := forall₂_getElem? h h1 h3
  obtain ⟨loss, k3, g⟩ := forall₂_getElem? g h2 h4
  obtain ⟨lo', hi', lr', k1', -, k2', -, -, g'⟩ := forall₂_getElem? h h1' h3'
  obtain ⟨loss', k3', g'⟩ := forall₂_getElem? g' h2' h4'
  obtain rfl := hasLoss_unique k3 k3'
  obtain rfl := hasLoss_unique k2 k2'
  obtain ⟨rfl, rfl⟩ := limitsOf_unique k1 k1'
  rw [g] at g'
  injection g'

/-- **C137, the tables fit together.**  Every table that `loss_summary_table` computes in floating point can be handed to `just_format_it` as it is. -/
theorem C137_same_table {L : Lib ℝ} (hr : MonoRounding L.rnd) (hd : Dyadic L.rnd) {tbl : LossTable} {refMethod : Str} {pairwise : Bool}
    {confidence : Flt ℝ} {methodEB : EBMethod}
    {limits : List (Str × (Flt ℝ × Flt ℝ))} {draws : Str → Str → Draws} {out : List (List (Flt ℝ × Flt ℝ × Flt ℝ))}
    (h : lossSummaryTableR L tbl refMethod pairwise confidence methodEB limits draws = .ok out) : ∃ t, SameTable t tbl out := by
  classical
  have hex : ∀ method metric : Str, ∃ x : FpCell, ∀ cell, SummaryCell tbl out metric method cell →
      SameNumber x.mean cell.1 ∧ SameNumber x.err cell.2.1 ∧ SameNumber x.pval cell.2.2 := by
    intro method metric
    by_cases hc : ∃ cell, SummaryCell tbl out metric method cell
    · obtain ⟨cell, hc⟩ := hc
      obtain ⟨r1, r2, r3⟩ := C137_rounded hr h hc
      obtain ⟨x1, s1⟩ := exists_pyFloat hd r1
      obtain ⟨x2, s2⟩ := exists_pyFloat hd r2
      obtain ⟨x3, s3⟩ := exists_pyFloat hd r3
      refine ⟨⟨x1, x2, x3⟩, fun c' hc' => ?_⟩
      rw [← summaryCell_unique h hc hc']
      exact ⟨s1, s2, s3⟩
    · exact ⟨⟨.nan, .nan, .nan⟩, fun c' hc' => absurd ⟨c', hc'⟩ hc⟩
  choose f hf using hex
  refine ⟨⟨tbl.methods, tbl.metrics, f⟩, rfl, rfl, ?_⟩
  have h' := (summaryR_ok.1 h).2.2.2
  rw [List.forall₂_iff_get]
  refine ⟨h'.length_eq, fun i h1 h2 => ?_⟩
  obtain ⟨lo, hi, lr, -, -, -, -, -, g⟩ := (List.forall₂_iff_get.1 h').2 i h1 h2
  rw [List.forall₂_iff_get]
  refine ⟨g.length_eq, fun j h3 h4 => ?_⟩
  refine hf _ _ _ ⟨i, j, _, ?_, ?_, List.getElem?_eq_getElem h2, ?_⟩
  · exact List.getElem?_eq_getElem h1
  · exact List.getElem?_eq_getElem h3
  · exact List.getElem?_eq_getElem h4

/-! ## Whatever is computed can be printed -/

/-- A p-value: NaN or between 0 and 1. -/
def ValidP (v : Flt ℝ) : Prop := v = .nan ∨ ∃ p : ℝ, v = .fin p ∧ 0 ≤ p ∧ p ≤ 1

/-- An error bar: NaN or not negative, possibly infinite. -/
def ValidBar (v : Flt ℝ) : Prop := v = .nan ∨ .fin 0 ≤ v

theorem validP_one : ValidP (.fin 1) := .inr ⟨1, rfl, by norm_num, le_rfl⟩

theorem validP_of_assert {v : Flt ℝ} (h : ((Flt.fin 0).le v && v.le (.fin 1)) = true) : ValidP v := by
  rw [Bool.and_eq_true, Flt.le_iff, Flt.le_iff] at h
  obtain ⟨⟨h1, h2⟩, -, h3⟩ := h
  cases v with
  | fin p => exact .inr ⟨p, rfl, by simpa using h2, by simpa using h3⟩
  | nan => exact .inl rfl
  | pinf => exact absurd h3 (by simp)
  | ninf => exact absurd h2 (by simp)

section
variable {L : Lib ℝ} (hr : MonoRounding L.rnd)

omit hr in
theorem validP_tTest {x : List (Flt ℝ)} {v : Flt ℝ} (h : tTestR L x = .ok v) : ValidP v := by
  unfold tTestR at h
  rw [assert_bind_ok] at h
  obtain ⟨-, h⟩ := h
  split at h
  · cases h; exact validP_one
  · rw [bind_ok_iff] at h
    obtain ⟨p, hp, h⟩ := h
    rw [assert_bind_ok] at h
    obtain ⟨h1, h⟩ := h
    cases h
    exact validP_of_assert h1

omit hr in
theorem validP_bernsteinTest {x : List (Flt ℝ)} {lo hi v : Flt ℝ} (h : bernsteinTestR L x lo hi = .ok v) : ValidP v := by
  unfold bernsteinTestR at h
  simp only [assert_bind_ok] at h
  obtain ⟨-, -, -, h⟩ := h
  split at h
  · cases h; exact validP_one
  · split at h
    · split at h
      · cases h; exact validP_one
      · split at h
        · cases h
        · simp only [assert_bind_ok, Bool.and_eq_true, decide_eq_true_eq] at h
          obtain ⟨-, -, ⟨h1, h2⟩, h⟩ := h
          cases h
          exact .inr ⟨_, rfl, h1, h2⟩
    · cases h; exact validP_one

include hr

theorem validP_significance {boot : List (Flt ℝ)} {ref : Ref ℝ} {v : Flt ℝ} (h : significanceR L.rnd boot ref = .ok v) : ValidP v := by
  have hb : ∀ l : List Bool, meanBoolR L.rnd l = .nan ∨ ∃ q : ℝ, meanBoolR L.rnd l = .fin q ∧ 0 ≤ q := by
    intro l
    unfold meanBoolR
    by_cases hl : (l.length : ℝ) = 0
    · have : l = [] := List.length_eq_zero_iff.1 (by exact_mod_cast hl)
      subst this
      left
      simp [Flt.div, Flt.signInf, rF]
    · right
      simp only [Flt.div, if_neg hl, rF]
      refine ⟨_, rfl, ?_⟩
      have := hr.mono (show (0 : ℝ) ≤ (l.count true : ℝ) / (l.length : ℝ) by positivity)
      rwa [hr.zero] at this
  have hmin : ∀ a b : Flt ℝ, (a = .nan ∨ ∃ q : ℝ, a = .fin q ∧ 0 ≤ q) → (b = .nan ∨ ∃ q : ℝ, b = .fin q ∧ 0 ≤ q) →
      Flt.minimum a b = .nan ∨ ∃ q : ℝ, Flt.minimum a b = .fin q ∧ 0 ≤ q := by
    rintro a b (rfl | ⟨q, rfl, hq⟩) (rfl | ⟨q', rfl, hq'⟩)
    · exact .inl rfl
    · exact .inl rfl
    · exact .inl rfl
    · right
      unfold Flt.minimum
      simp only [Flt.isNaN, Bool.or_self, Bool.false_eq_true, if_false]
      rcases min_choice (Flt.fin q) (Flt.fin q') with h | h <;> rw [h]
      · exact ⟨q, rfl, hq⟩
      · exact ⟨q', rfl, hq'⟩
  unfold significanceR at h
  split at h
  · cases h
  · rename_i r _
    simp only [assert_bind_ok] at h
    obtain ⟨-, -, h⟩ := h
    cases h
    rcases hmin _ _ (hb (List.zipWith Flt.le boot r)) (hb (List.zipWith Flt.le r boot)) with h | ⟨q, h, hq⟩
    · rw [h]; exact .inl rfl
    · rw [h]
      simp only [Flt.mul, rF]
      have h2 := hr.mono (show (0 : ℝ) ≤ 2 * q by positivity)
      rw [hr.zero] at h2
      unfold Flt.minimum
      simp only [Flt.isNaN, Bool.or_self, Bool.false_eq_true, if_false]
      rcases le_total (Flt.fin (1 : ℝ)) (.fin (L.rnd (2 * q))) with h | h
      · rw [min_eq_left h]; exact validP_one
      · rw [min_eq_right h]
        exact .inr ⟨_, rfl, h2, by simpa using h⟩

theorem validP_boot {x : List (Flt ℝ)} {c : Flt ℝ} {nBoot : Nat} {counts : List (List Nat)} {a b d : Bool}
    {r : Flt ℝ × Flt ℝ × (Flt ℝ × Flt ℝ)} (h : bootEBTestR L x c nBoot counts a b d = .ok r) : ValidP r.2.1 := by
  unfold bootEBTestR at h
  rw [assert_bind_ok] at h
  obtain ⟨-, h⟩ := h
  split at h
  · cases h
    exact validP_one
  · simp only [bind_ok_iff] at h
    obtain ⟨w, -, p, hp, e, he, ci, -, h⟩ := h
    cases h
    split at hp
    · exact validP_significance hr hp
    · cases hp; exact validP_one

theorem validP_test {x : List (Flt ℝ)} {lo hi : Flt ℝ} {method : EBMethod} {counts : List (List Nat)} {v : Flt ℝ}
    (h : getTestR L x lo hi method counts = .ok v) : ValidP v := by
  cases method with
  | t => exact validP_tTest h
  | bernstein => exact validP_bernsteinTest h
  | boot =>
    simp only [getTestR, bootTestR, bind_ok_iff] at h
    obtain ⟨q, hq, _, -, h⟩ := h
    cases h
    exact validP_boot hr hq
  | other => cases h

omit hr in
theorem validBar_clip {mu EB lo hi v : Flt ℝ} (h : clipEBR L mu EB lo hi (.fin 0) = .ok v) : ValidBar v := by
  unfold clipEBR at h
  simp only [assert_bind_ok] at h
  obtain ⟨-, -, h⟩ := h
  split at h
  · cases h
  · split at h
    · cases h
    · rw [assert_bind_ok] at h
      obtain ⟨h1, h⟩ := h
      cases h
      simp only [Bool.not_eq_true'] at h1
      unfold Flt.clip
      split
      · exact .inr le_rfl
      · rename_i h2
        split
        · generalize Flt.fmax (rF L.rnd (hi.sub mu)) (rF L.rnd (mu.sub lo)) = w at h1
          by_cases hw : w = .nan
          · exact .inl hw
          · right
            by_contra hcon
            rw [not_le, ← Flt.lt_iff' (by simp), h1] at hcon
            cases hcon
        · by_cases he : EB = .nan
          · exact .inl he
          · right
            by_contra hcon
            rw [not_le, ← Flt.lt_iff' (by simp)] at hcon
            exact h2 hcon

theorem validP_meanEBTest {x : List (Flt ℝ)} {c lo hi : Flt ℝ} {method : EBMethod} {counts : List (List Nat)}
    {r : Flt ℝ × Flt ℝ × Flt ℝ} (h : getMeanEBTestR L x c (.fin 0) lo hi method counts = .ok r) : ValidBar r.2.1 ∧ ValidP r.2.2 := by
  unfold getMeanEBTestR at h
  simp only [bind_ok_iff] at h
  obtain ⟨_, -, e, he, mu, -, e', he', h⟩ := h
  cases h
  refine ⟨validBar_clip he', ?_⟩
  cases method with
  | t =>
    simp only [bind_ok_iff] at he
    obtain ⟨a, ha, b, hb, he⟩ := he
    cases he
    exact validP_tTest hb
  | bernstein =>
    simp only [bind_ok_iff] at he
    obtain ⟨a, ha, b, hb, he⟩ := he
    cases he
    exact validP_bernsteinTest hb
  | boot =>
    simp only [bind_ok_iff] at he
    obtain ⟨a, ha, he⟩ := he
    cases he
    exact validP_boot hr ha
  | other => cases he

/-- **C137, valid entries.**  Whatever the losses, limits, method and outcome of the bootstrap draws, and however the arithmetic is rounded: in
a table that `loss_summary_table` returns every error bar is NaN or not negative and every p-value is NaN or between 0 and 1. -/
theorem C137_valid {tbl : LossTable} {refMethod : Str} {pairwise : Bool} {confidence : Flt ℝ} {methodEB : EBMethod}
    {limits : List (Str × (Flt ℝ × Flt ℝ))} {draws : Str → Str → Draws} {out : List (List (Flt ℝ × Flt ℝ × Flt ℝ))}
    (h : lossSummaryTableR L tbl refMethod pairwise confidence methodEB limits draws = .ok out)
    {metric method : Str} {cell : Flt ℝ × Flt ℝ × Flt ℝ} (hc : SummaryCell tbl out metric method cell) :
    (cell.2.1 = .nan ∨ .fin 0 ≤ cell.2.1) ∧ (cell.2.2 = .nan ∨ ∃ p : ℝ, cell.2.2 = .fin p ∧ 0 ≤ p ∧ p ≤ 1) := by
  obtain ⟨i, j, row, h1, h2, h3, h4⟩ := hc
  obtain ⟨-, -, -, h⟩ := summaryR_ok.1 h
  obtain ⟨lo, hi, lr, k1, -, k2, -, -, h⟩ := forall₂_getElem? h h1 h3
  obtain ⟨loss, k3, h⟩ := forall₂_getElem? h h2 h4
  unfold cellOfR at h
  simp only [assert_bind_ok] at h
  obtain ⟨-, -, h⟩ := h
  split at h
  · split at h
    · cases h; exact ⟨.inl rfl, .inl rfl⟩
    · rw [bind_ok_iff] at h
      obtain ⟨r, hr', h⟩ := h
      cases h
      have := validP_meanEBTest hr hr'
      exact this
  · simp only [bind_ok_iff] at h
    obtain ⟨r, hr', _, -, p, hp, h⟩ := h
    cases h
    constructor
    · unfold getMeanEBR at hr'
      simp only [bind_ok_iff] at hr'
      obtain ⟨_, -, e, he, mu, -, e', he', hr'⟩ := hr'
      cases hr'
      exact validBar_clip he'
    · split at hp
      · cases hp; exact .inl rfl
      · exact validP_test hr hp

/-- **C137, whatever is computed can be printed.**  If `loss_summary_table` returns a table for finite losses, then that table can be handed to
`just_format_it`, which returns a text, TeX or plain, for every shift modulus of at least 1 and all limits and units, unless an estimate is
more than `10^26` times its positive error bar. -/
theorem C137_prints (hd : Dyadic L.rnd) {tbl : LossTable} {refMethod : Str} {pairwise : Bool} {confidence : Flt ℝ} {methodEB : EBMethod}
    {limits : List (Str × (Flt ℝ × Flt ℝ))} {draws : Str → Str → Draws} {out : List (List (Flt ℝ × Flt ℝ × Flt ℝ))}
    (h : lossSummaryTableR L tbl refMethod pairwise confidence methodEB limits draws = .ok out)
    (hfin : ∀ metric ∈ tbl.metrics, ∀ method ∈ tbl.methods, ∃ xs : List ℝ, xs ≠ [] ∧ HasLoss tbl metric method (finVec xs))
    (hbig : ∀ metric method cell, SummaryCell tbl out metric method cell → ∀ mu e : ℝ, cell.1 = .fin mu → cell.2.1 = .fin e → 0 < e →
      |mu| ≤ 10 ^ 26 * e) :
    ∃ t, SameTable t tbl out ∧ ∀ sortAbs, SortsByAbs sortAbs → ∀ ebLimit (o : FormatOpts Str) k, o.shiftMod = some k → 1 ≤ k →
      ∀ ud usePrefix useTex, ∃ st text, justFormatIt sortAbs ebLimit o ud usePrefix useTex t = .ok st ∧
        justFormatItText sortAbs ebLimit o ud usePrefix useTex t = .ok text := by
  obtain ⟨t, ht⟩ := C137_same_table hr hd h
  refine ⟨t, ht, fun sortAbs hsort ebLimit o k hk hk1 ud usePrefix useTex => ?_⟩
  have hns : o.shiftMod ≠ none := by rw [hk]; simp
  obtain ⟨g1, g2, g3, g4⟩ := summaryR_ok.1 h
  obtain ⟨text, htext⟩ := C118_floats hsort ebLimit o ud usePrefix useTex t (by rw [ht.1]; exact List.ne_nil_of_mem g1)
    (by rw [ht.2.1]; exact g3) (fun j hj => by rw [hk] at hj; cases hj; exact hk1) (by
      intro metric hmet method hmeth
      rw [ht.2.1] at hmet
      rw [ht.1] at hmeth
      obtain ⟨i, hi, rfl⟩ := List.mem_iff_getElem.1 hmet
      obtain ⟨j, hj, rfl⟩ := List.mem_iff_getElem.1 hmeth
      have hi' : i < out.length := by rw [← g4.length_eq]; exact hi
      obtain ⟨lo, hi2, lr, -, -, hlr, -, -, g⟩ := forall₂_getElem? g4 (List.getElem?_eq_getElem hi) (List.getElem?_eq_getElem hi')
      have hj' : j < (out[i]).length := by rw [← g.length_eq]; exact hj
      obtain ⟨loss, hl, g⟩ := forall₂_getElem? g (List.getElem?_eq_getElem hj) (List.getElem?_eq_getElem hj')
      have hc : SummaryCell tbl out tbl.metrics[i] tbl.methods[j] (out[i])[j] :=
        ⟨i, j, out[i], List.getElem?_eq_getElem hi, List.getElem?_eq_getElem hj, List.getElem?_eq_getElem hi', List.getElem?_eq_getElem hj'⟩
      obtain ⟨xs, hne, hxs⟩ := hfin _ hmet _ hmeth
      obtain rfl := hasLoss_unique hxs hl
      have hmean : ((out[i])[j]).1 = .fin (meanR L xs) := by
        unfold cellOfR at g
        simp only [assert_bind_ok, meanFR_finVec hne] at g
        obtain ⟨-, -, g⟩ := g
        split at g
        · split at g
          · injection g with g; rw [← g]
          · rw [bind_ok_iff] at g
            obtain ⟨r, -, g⟩ := g
            injection g with g; rw [← g]
        · simp only [bind_ok_iff] at g
          obtain ⟨r, -, _, -, p, -, g⟩ := g
          injection g with g; rw [← g]
      obtain ⟨v1, v2⟩ := C137_valid hr h hc
      have hb := hbig _ _ _ hc
      obtain ⟨s1, s2, s3⟩ := sameTable_cell ht hc
      generalize t.cell tbl.methods[j] tbl.metrics[i] = x at s1 s2 s3 ⊢
      generalize (out[i])[j] = cell at *
      obtain ⟨xm, xe, xp⟩ := x
      obtain ⟨cm, ce, cp⟩ := cell
      simp only at *
      subst hmean
      obtain ⟨n, m, e, rfl, hm⟩ := sameNumber_fin s1
      have hgp : GoodP ⟨.fin n m e, xe, xp⟩ := by
        rcases v2 with rfl | ⟨p, rfl, hp0, hp1⟩
        · left
          cases xp with
          | nan => rfl
          | inf b => cases b <;> exact s3.elim
          | fin _ _ _ => exact s3.elim
        · obtain ⟨a, b, c, rfl, rfl⟩ := sameNumber_fin s3
          exact .inr ⟨a, b, c, rfl, by exact_mod_cast hp0, by exact_mod_cast hp1⟩
      refine ⟨hgp, n, m, e, rfl, ?_⟩
      cases ce with
      | nan =>
        left
        cases xe with
        | nan => exact ⟨.inl rfl, fun h => absurd h hns⟩
        | inf b => cases b <;> exact s2.elim
        | fin _ _ _ => exact s2.elim
      | pinf =>
        left
        cases xe with
        | nan => exact s2.elim
        | inf b =>
          cases b with
          | false => exact ⟨.inr (.inl rfl), fun h => absurd h hns⟩
          | true => exact s2.elim
        | fin _ _ _ => exact s2.elim
      | ninf =>
        rcases v1 with v1 | v1
        · cases v1
        · exact absurd v1 (by simp)
      | fin v =>
        obtain ⟨en, em, ee, rfl, rfl⟩ := sameNumber_fin s2
        have hge' : 0 ≤ fval en em ee := by
          rcases v1 with v1 | v1
          · cases v1
          · rw [Flt.fin_le_fin] at v1
            exact_mod_cast v1
        rcases hge'.eq_or_lt with h | h
        · exact .inl ⟨.inr (.inr ⟨en, em, ee, rfl, .inl h.symm⟩), fun h => absurd h hns⟩
        · by_cases hlim : ∀ k, ebLimit tbl.metrics[i] = some k → fval en em ee ≤ (10 : ℚ) ^ k
          · refine .inr ⟨en, em, ee, rfl, h, hlim, ?_, fun h => absurd h hns⟩
            have := hb _ _ rfl rfl (by exact_mod_cast h)
            rw [← hm] at this
            exact_mod_cast this
          · push Not at hlim
            exact .inl ⟨.inr (.inr ⟨en, em, ee, rfl, .inr hlim⟩), fun h => absurd h hns⟩)
  have htext' := htext
  rw [justFormatItText_eq] at htext'
  cases hst : justFormatIt sortAbs ebLimit o ud usePrefix useTex t with
  | error e => rw [hst] at htext'; cases htext'
  | ok st => exact ⟨st, text, rfl, htext⟩

end

end Mlp.Props
