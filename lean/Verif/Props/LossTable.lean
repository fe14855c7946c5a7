import Verif.Props.Summary
import Verif.Spec.LossTable
import Verif.Lemmas.PermInv
import Verif.Lemmas.StudentT

/-! # C51, C52, C53: the loss summary table -/

namespace Mlp.Props
open Mlp.Paper Mlp.Spec Mlp.Boot Mlp.Lemmas

theorem assert_bind_ok {α : Type} (b : Bool) (f : Unit → Py α) (r : α) :
    (pyAssert b >>= f) = .ok r ↔ b = true ∧ f () = .ok r := by
  cases b
  · simp [pyAssert_bind]
  · simp [pyAssert_bind]

theorem exists_unit (p : Unit → Prop) : (∃ u, p u) ↔ p () := ⟨fun ⟨_, h⟩ => h, fun h => ⟨_, h⟩⟩

theorem column_ok_iff (tbl : LossTable) (metric method : Str) (l : List (Flt ℝ)) :
    tbl.column metric method = .ok l ↔ HasLoss tbl metric method l := by
  unfold LossTable.column HasLoss
  generalize hf : (tbl.cols.filter fun c => decide (c.1 = (metric, method))) = f
  constructor
  · intro h
    match f, h with
    | [c], h =>
      cases h
      have hc : c ∈ tbl.cols.filter fun c => decide (c.1 = (metric, method)) := by rw [hf]; simp
      obtain ⟨hc1, hc2⟩ := List.mem_filter.1 hc
      obtain ⟨before, after, hsplit⟩ := List.append_of_mem hc1
      have hlab : c.1 = (metric, method) := by simpa using hc2
      rw [hsplit, List.filter_append, List.filter_cons_of_pos (by simpa using hlab)] at hf
      have hlen := congrArg List.length hf
      simp only [List.length_append, List.length_cons, List.length_nil] at hlen
      have hb : (before.filter fun c => decide (c.1 = (metric, method))) = [] :=
        List.eq_nil_of_length_eq_zero (by omega)
      have ha : (after.filter fun c => decide (c.1 = (metric, method))) = [] :=
        List.eq_nil_of_length_eq_zero (by omega)
      refine ⟨before, after, ?_, ?_, ?_⟩
      · rw [hsplit, ← hlab]
      · intro d hd he
        have := List.filter_eq_nil_iff.1 hb d hd
        simp [he] at this
      · intro d hd he
        have := List.filter_eq_nil_iff.1 ha d hd
        simp [he] at this
  · rintro ⟨before, after, hs, hb, ha⟩
    rw [hs, List.filter_append, List.filter_cons_of_pos (by simp),
      List.filter_eq_nil_iff.2 (fun c hc => by simpa using hb c hc),
      List.filter_eq_nil_iff.2 (fun c hc => by simpa using ha c hc)] at hf
    subst hf
    rfl

theorem hasLoss_unique {tbl : LossTable} {metric method : Str} {l l' : List (Flt ℝ)}
    (h : HasLoss tbl metric method l) (h' : HasLoss tbl metric method l') : l = l' := by
  have a := (column_ok_iff _ _ _ _).2 h
  have b := (column_ok_iff _ _ _ _).2 h'
  rw [a] at b
  cases b; rfl

theorem limitsGet_spec (limits : List (Str × (Flt ℝ × Flt ℝ))) (metric : Str) (lo hi : Flt ℝ) :
    limitsGet limits metric = (lo, hi) ↔ LimitsOf limits metric lo hi := by
  unfold limitsGet
  constructor
  · intro h
    cases hf : limits.find? fun p => decide (p.1 = metric) with
    | none =>
      rw [hf] at h
      simp at h
      obtain ⟨rfl, rfl⟩ := h
      apply LimitsOf.default
      intro p hp he
      have := List.find?_eq_none.1 hf p hp
      simp [he] at this
    | some p =>
      rw [hf] at h
      obtain ⟨hp, before, after, hs, hb⟩ := List.find?_eq_some_iff_append.1 hf
      simp at h hp
      obtain ⟨p1, p2⟩ := p
      simp only at h hp
      subst h hp
      refine .given before after lo hi hs ?_
      intro q hq he
      have := hb q hq
      simp [he] at this
  · intro h
    cases h with
    | given before after lo hi hs hb =>
      have : (limits.find? fun p => decide (p.1 = metric)) = some (metric, (lo, hi)) := by
        rw [List.find?_eq_some_iff_append]
        refine ⟨by simp, before, after, hs, fun q hq => ?_⟩
        simpa using hb q hq
      rw [this]; rfl
    | default hb =>
      have : (limits.find? fun p => decide (p.1 = metric)) = none := by
        rw [List.find?_eq_none]
        intro q hq
        simpa using hb q hq
      rw [this]; rfl

/-- What a cell of the summary table must be. -/
def IsCell (T : Nat → RefDist) (tbl : LossTable) (refMethod : Str) (pairwise : Bool)
    (confidence : Flt ℝ) (methodEB : EBMethod) (limits : List (Str × (Flt ℝ × Flt ℝ)))
    (draws : Str → Str → Draws) (metric method : Str) (cell : Flt ℝ × Flt ℝ × Flt ℝ) : Prop :=
  ∃ loss lossRef lower upper, HasLoss tbl metric method loss ∧ HasLoss tbl metric refMethod lossRef ∧
    LimitsOf limits metric lower upper ∧ NoNaN loss ∧ NoNaN lossRef ∧
    (∀ v ∈ loss, lower ≤ v ∧ v ≤ upper) ∧ (∀ v ∈ lossRef, lower ≤ v ∧ v ≤ upper) ∧
    cell.1 = Flt.mean loss ∧
    (pairwise = true → method = refMethod → cell.2 = (.nan, .nan)) ∧
    (pairwise = true → method ≠ refMethod →
      ∃ m, getMeanEBTest T (List.zipWith Flt.sub loss lossRef) confidence (.fin 0)
        (upper.sub lower).neg (upper.sub lower) methodEB (draws metric method).eb = .ok (m, cell.2)) ∧
    (pairwise = false →
      getMeanEB T loss confidence (.fin 0) lower upper methodEB (draws metric method).eb =
        .ok (Flt.mean loss, cell.2.1) ∧
      (method = refMethod → cell.2.2 = .nan) ∧
      (method ≠ refMethod → getTest T (List.zipWith Flt.sub loss lossRef) (upper.sub lower).neg
        (upper.sub lower) methodEB (draws metric method).test = .ok cell.2.2))

theorem within_iff {lower upper : Flt ℝ} {x : List (Flt ℝ)} :
    within lower upper x = true ↔ ∀ v ∈ x, lower.le v = true ∧ v.le upper = true := by
  unfold within
  rw [Bool.and_eq_true, List.all_eq_true, List.all_eq_true]
  constructor
  · rintro ⟨h1, h2⟩ v hv; exact ⟨h1 v hv, h2 v hv⟩
  · intro h; exact ⟨fun v hv => (h v hv).1, fun v hv => (h v hv).2⟩

theorem within_order {lower upper : Flt ℝ} {x : List (Flt ℝ)} (h : within lower upper x = true) :
    ∀ v ∈ x, lower ≤ v ∧ v ≤ upper := fun v hv =>
  ⟨(Flt.le_iff.1 (within_iff.1 h v hv).1).2, (Flt.le_iff.1 (within_iff.1 h v hv).2).2⟩

theorem lossCell_ok {T : Nat → RefDist} {lossRef : List (Flt ℝ)} {tbl : LossTable} {refMethod : Str}
    {pairwise : Bool} {confidence : Flt ℝ} {methodEB : EBMethod} {lower upper : Flt ℝ} {metric : Str}
    {draws : Draws} {method : Str} {cell : Flt ℝ × Flt ℝ × Flt ℝ}
    (h : lossCell T lossRef tbl refMethod pairwise confidence methodEB lower upper metric draws method =
      .ok cell) :
    ∃ loss, HasLoss tbl metric method loss ∧ NoNaN loss ∧ within lower upper loss = true ∧
      cell.1 = Flt.mean loss ∧
      (pairwise = true → method = refMethod → cell.2 = (.nan, .nan)) ∧
      (pairwise = true → method ≠ refMethod →
        ∃ m, getMeanEBTest T (List.zipWith Flt.sub loss lossRef) confidence (.fin 0)
          (upper.sub lower).neg (upper.sub lower) methodEB draws.eb = .ok (m, cell.2)) ∧
      (pairwise = false →
        getMeanEB T loss confidence (.fin 0) lower upper methodEB draws.eb =
          .ok (Flt.mean loss, cell.2.1) ∧
        (method = refMethod → cell.2.2 = .nan) ∧
        (method ≠ refMethod → getTest T (List.zipWith Flt.sub loss lossRef) (upper.sub lower).neg
          (upper.sub lower) methodEB draws.test = .ok cell.2.2)) := by
  unfold lossCell at h
  rw [bind_ok_iff] at h
  obtain ⟨loss, hl, h⟩ := h
  rw [pyAssert_bind] at h
  by_cases h1 : (!(loss.any fun v => v.isNaN)) = true
  swap
  · rw [if_neg h1] at h; cases h
  rw [if_pos h1, pyAssert_bind] at h
  by_cases h2 : within lower upper loss = true
  swap
  · rw [if_neg h2] at h; cases h
  rw [if_pos h2] at h
  refine ⟨loss, (column_ok_iff _ _ _ _).1 hl, (noNaN_any loss).1 h1, h2, ?_⟩
  by_cases hs : method = refMethod
  · cases pairwise with
    | true =>
      simp only [if_true, hs, decide_true, pure_eq_ok, Except.ok.injEq] at h
      subst h
      simp [hs]
    | false =>
      simp only [Bool.false_eq_true, if_false, hs, decide_true, if_true, bind_ok_iff,
        pure_eq_ok, Except.ok.injEq] at h
      obtain ⟨r, hr, ⟨⟩, hu, p, rfl, rfl⟩ := h
      rw [pyAssert_eq_ok] at hu
      obtain ⟨hn, hu'⟩ := Flt.eq_iff.1 hu
      refine ⟨rfl, by simp, by simp, fun _ => ⟨?_, fun _ => rfl, fun h => absurd hs h⟩⟩
      rw [hr, ← hu']
  · cases pairwise with
    | true =>
      simp only [if_true, hs, decide_false, Bool.false_eq_true, if_false, bind_ok_iff, pure_eq_ok,
        Except.ok.injEq] at h
      obtain ⟨r, hr, rfl⟩ := h
      exact ⟨rfl, fun _ h => absurd h hs, fun _ _ => ⟨r.1, hr⟩, by simp⟩
    | false =>
      simp only [Bool.false_eq_true, if_false, hs, decide_false, bind_ok_iff, pure_eq_ok,
        Except.ok.injEq] at h
      obtain ⟨r, hr, ⟨⟩, hu, p, hp, rfl⟩ := h
      rw [pyAssert_eq_ok] at hu
      obtain ⟨hn, hu'⟩ := Flt.eq_iff.1 hu
      refine ⟨rfl, by simp, by simp, fun _ => ⟨?_, fun h => absurd h hs, fun _ => hp⟩⟩
      rw [hr, ← hu']

/-- The part of `loss_summary_table` for one metric. -/
theorem summary_ok {T : Nat → RefDist} {tbl : LossTable} {refMethod : Str} {pairwise : Bool}
    {confidence : Flt ℝ} {methodEB : EBMethod} {limits : List (Str × (Flt ℝ × Flt ℝ))}
    {draws : Str → Str → Draws} {out : List (List (Flt ℝ × Flt ℝ × Flt ℝ))} :
    lossSummaryTable T tbl refMethod pairwise confidence methodEB limits draws = .ok out ↔
      refMethod ∈ tbl.methods ∧ 1 ≤ tbl.nrows ∧ tbl.metrics ≠ [] ∧
      List.Forall₂ (fun metric row => ∃ lower upper lossRef, LimitsOf limits metric lower upper ∧
        lower.le upper = true ∧ HasLoss tbl metric refMethod lossRef ∧ NoNaN lossRef ∧
        within lower upper lossRef = true ∧
        List.Forall₂ (fun method cell => lossCell T lossRef tbl refMethod pairwise confidence methodEB
          lower upper metric (draws metric method) method = .ok cell) tbl.methods row) tbl.metrics out := by
  unfold lossSummaryTable
  have hlen : 1 ≤ tbl.metrics.length ↔ tbl.metrics ≠ [] := by
    rw [← List.length_pos_iff]; omega
  simp only [assert_bind_ok, decide_eq_true_eq, Bool.and_eq_true, mapM_ok_iff, hlen]
  simp only [bind_ok_iff, column_ok_iff, exists_unit, pyAssert_eq_ok, noNaN_any, mapM_ok_iff]
  rw [and_assoc]
  refine and_congr_right fun _ => and_congr_right fun _ => and_congr_right fun _ => ?_
  have key : ∀ metric row, ((limitsGet limits metric).1.le (limitsGet limits metric).2 = true ∧
      ∃ lossRef, HasLoss tbl metric refMethod lossRef ∧ NoNaN lossRef ∧
      within (limitsGet limits metric).1 (limitsGet limits metric).2 lossRef = true ∧
      List.Forall₂ (fun method cell => lossCell T lossRef tbl refMethod pairwise confidence methodEB
        (limitsGet limits metric).1 (limitsGet limits metric).2 metric (draws metric method) method = .ok cell)
        tbl.methods row) ↔
      (∃ lower upper lossRef, LimitsOf limits metric lower upper ∧
        lower.le upper = true ∧ HasLoss tbl metric refMethod lossRef ∧ NoNaN lossRef ∧
        within lower upper lossRef = true ∧
        List.Forall₂ (fun method cell => lossCell T lossRef tbl refMethod pairwise confidence methodEB
          lower upper metric (draws metric method) method = .ok cell) tbl.methods row) := by
    intro metric row
    constructor
    · rintro ⟨a, lr, b, c, d, e⟩
      exact ⟨_, _, lr, (limitsGet_spec limits metric _ _).1 rfl, a, b, c, d, e⟩
    · rintro ⟨lo, hi, lr, hl, a, b, c, d, e⟩
      rw [(limitsGet_spec limits metric _ _).2 hl]
      exact ⟨a, lr, b, c, d, e⟩
  simp only [key]

theorem forall₂_exists {α β : Type} {R : α → β → Prop} {l : List α} (h : ∀ a ∈ l, ∃ b, R a b) :
    ∃ r, List.Forall₂ R l r := by
  induction l with
  | nil => exact ⟨[], .nil⟩
  | cons a l ih =>
    obtain ⟨b, hb⟩ := h a (by simp)
    obtain ⟨r, hr⟩ := ih fun a ha => h a (by simp [ha])
    exact ⟨b :: r, .cons hb hr⟩

/-- C51: every cell of the table is what it should be; there is one row of cells for each metric and
one cell for each method. -/
theorem C51_cells {T : Nat → RefDist} {tbl : LossTable} {refMethod : Str} {pairwise : Bool}
    {confidence : Flt ℝ} {methodEB : EBMethod} {limits : List (Str × (Flt ℝ × Flt ℝ))}
    {draws : Str → Str → Draws} {out : List (List (Flt ℝ × Flt ℝ × Flt ℝ))}
    (h : lossSummaryTable T tbl refMethod pairwise confidence methodEB limits draws = .ok out) :
    List.Forall₂ (fun metric row => List.Forall₂ (fun method cell =>
      IsCell T tbl refMethod pairwise confidence methodEB limits draws metric method cell)
      tbl.methods row) tbl.metrics out := by
  obtain ⟨-, -, -, h⟩ := summary_ok.1 h
  refine h.imp fun metric row ⟨lower, upper, lossRef, hlim, hle, href, hrn, hrw, hrow⟩ => ?_
  refine hrow.imp fun method cell hcell => ?_
  obtain ⟨loss, h1, h2, h3, h4, h5, h6, h7⟩ := lossCell_ok hcell
  exact ⟨loss, lossRef, lower, upper, h1, href, hlim, h2, hrn, within_order h3, within_order hrw,
    h4, h5, h6, h7⟩

/-- A p-value returned by a test is a number in [0,1]. -/
theorem getTest_range {T : Nat → RefDist} {x : List (Flt ℝ)} {lower upper : Flt ℝ} {method : EBMethod}
    {counts : List (List Nat)} {p : Flt ℝ} (h : getTest T x lower upper method counts = .ok p) :
    ∃ r : ℝ, p = .fin r ∧ 0 ≤ r ∧ r ≤ 1 := by
  have fin_of : ∀ p : Flt ℝ, ((Flt.fin 0).le p && p.le (.fin 1)) = true → ∃ r : ℝ, p = .fin r ∧ 0 ≤ r ∧ r ≤ 1 := by
    intro p hp
    rw [Bool.and_eq_true, Flt.le_iff, Flt.le_iff] at hp
    obtain ⟨⟨a, b⟩, -, c⟩ := hp
    cases p with
    | fin r => exact ⟨r, rfl, by simpa using b, by simpa using c⟩
    | pinf => simp at c
    | ninf => simp at b
    | nan => exact absurd rfl a
  cases method with
  | t =>
    unfold getTest tTest at h
    simp only [pyAssert_bind] at h
    split at h
    · split at h
      · cases h; exact ⟨1, rfl, by norm_num, le_rfl⟩
      · rw [bind_ok_iff] at h
        obtain ⟨p', -, h⟩ := h
        by_cases hp : ((Flt.fin 0).le p' && p'.le (.fin 1)) = true
        · rw [if_pos hp] at h
          cases h
          exact fin_of _ hp
        · rw [if_neg hp] at h; cases h
    · cases h
  | bernstein =>
    unfold getTest bernsteinTest at h
    simp only [pyAssert_bind] at h
    split at h
    · split at h
      · split at h
        · split at h
          · cases h; exact ⟨1, rfl, by norm_num, le_rfl⟩
          · split at h
            · split at h
              · cases h; exact ⟨1, rfl, by norm_num, le_rfl⟩
              · split at h
                · cases h
                · split at h
                  · split at h
                    · split at h
                      · rename_i hp
                        cases h
                        rw [Bool.and_eq_true, decide_eq_true_eq, decide_eq_true_eq] at hp
                        exact ⟨_, rfl, hp.1, hp.2⟩
                      · cases h
                    · cases h
                  · cases h
            · cases h; exact ⟨1, rfl, by norm_num, le_rfl⟩
        · cases h
      · cases h
    · cases h
  | boot =>
    unfold getTest bootTest at h
    simp only at h
    rw [bind_ok_iff] at h
    obtain ⟨r, -, h⟩ := h
    rw [pyAssert_bind] at h
    by_cases hp : ((Flt.fin 0).le r.2.1 && r.2.1.le (.fin 1)) = true
    · rw [if_pos hp] at h
      cases h
      exact fin_of _ hp
    · rw [if_neg hp] at h; cases h
  | other => cases h

/-- The p-value of the combined call is a number in [0,1]. -/
theorem getMeanEBTest_range {T : Nat → RefDist} {x : List (Flt ℝ)} {conf minEB lower upper : Flt ℝ}
    {method : EBMethod} {counts : List (List Nat)} {mu EB p : Flt ℝ}
    (h : getMeanEBTest T x conf minEB lower upper method counts = .ok (mu, EB, p)) :
    ∃ r : ℝ, p = .fin r ∧ 0 ≤ r ∧ r ≤ 1 := by
  exact getTest_range ((C49_agree T x conf minEB lower upper method counts mu EB p).1 h).2

/-- C51: the p-value is missing (NaN) exactly in the row of the reference method, otherwise it is a
number in [0,1]. -/
theorem C51_p_missing {T : Nat → RefDist} {tbl : LossTable} {refMethod : Str} {pairwise : Bool}
    {confidence : Flt ℝ} {methodEB : EBMethod} {limits : List (Str × (Flt ℝ × Flt ℝ))}
    {draws : Str → Str → Draws} {metric method : Str} {cell : Flt ℝ × Flt ℝ × Flt ℝ}
    (h : IsCell T tbl refMethod pairwise confidence methodEB limits draws metric method cell) :
    (cell.2.2 = .nan ↔ method = refMethod) ∧
    (method ≠ refMethod → ∃ p : ℝ, cell.2.2 = .fin p ∧ 0 ≤ p ∧ p ≤ 1) := by
  obtain ⟨loss, lossRef, lower, upper, -, -, -, -, -, -, -, -, h1, h2, h3⟩ := h
  have hp : method ≠ refMethod → ∃ p : ℝ, cell.2.2 = .fin p ∧ 0 ≤ p ∧ p ≤ 1 := by
    intro hne
    cases pairwise with
    | true =>
      obtain ⟨m, hm⟩ := h2 rfl hne
      exact getMeanEBTest_range hm
    | false => exact getTest_range ((h3 rfl).2.2 hne)
  refine ⟨⟨fun hn => ?_, fun he => ?_⟩, hp⟩
  · by_contra hne
    obtain ⟨p, e, -⟩ := hp hne
    rw [hn] at e; cases e
  · cases pairwise with
    | true => rw [h1 rfl he]
    | false => exact (h3 rfl).2.1 he

/-- C51: the means do not depend on the options, the reference, the limits or the random draws. -/
theorem C51_mean_unaffected {T T' : Nat → RefDist} {tbl : LossTable} {ref ref' : Str} {pw pw' : Bool}
    {c c' : Flt ℝ} {m m' : EBMethod} {lim lim' : List (Str × (Flt ℝ × Flt ℝ))}
    {dr dr' : Str → Str → Draws} {metric method : Str} {cell cell' : Flt ℝ × Flt ℝ × Flt ℝ}
    (h : IsCell T tbl ref pw c m lim dr metric method cell)
    (h' : IsCell T' tbl ref' pw' c' m' lim' dr' metric method cell') : cell.1 = cell'.1 := by
  obtain ⟨loss, -, -, -, a1, -, -, -, -, -, -, a2, -⟩ := h
  obtain ⟨loss', -, -, -, b1, -, -, -, -, -, -, b2, -⟩ := h'
  rw [a2, b2, hasLoss_unique a1 b1]

/-- C51: for finite losses the mean is the ordinary average. -/
theorem C51_finite_mean {T : Nat → RefDist} {tbl : LossTable} {ref : Str} {pw : Bool}
    {c : Flt ℝ} {m : EBMethod} {lim : List (Str × (Flt ℝ × Flt ℝ))}
    {dr : Str → Str → Draws} {metric method : Str} {cell : Flt ℝ × Flt ℝ × Flt ℝ}
    (h : IsCell T tbl ref pw c m lim dr metric method cell) {xs : List ℝ} (hne : xs ≠ [])
    (hx : HasLoss tbl metric method (finVec xs)) : cell.1 = .fin (avg xs) := by
  obtain ⟨loss, -, -, -, a1, -, -, -, -, -, -, a2, -⟩ := h
  rw [a2, ← hasLoss_unique hx a1, mean_finVec hne]

/-! ## C52 -/

/-- C52: a NaN loss of any method, or a loss outside the limits of its metric, and there is no table. -/
theorem C52_reject {T : Nat → RefDist} {tbl : LossTable} {refMethod : Str} {pairwise : Bool}
    {confidence : Flt ℝ} {methodEB : EBMethod} {limits : List (Str × (Flt ℝ × Flt ℝ))}
    {draws : Str → Str → Draws} {metric method : Str} (hmet : metric ∈ tbl.metrics)
    (hmeth : method ∈ tbl.methods) {loss : List (Flt ℝ)} (hl : HasLoss tbl metric method loss)
    {lower upper : Flt ℝ} (hlim : LimitsOf limits metric lower upper)
    (hbad : ∃ v ∈ loss, v = .nan ∨ v < lower ∨ upper < v) :
    ∀ out, lossSummaryTable T tbl refMethod pairwise confidence methodEB limits draws ≠ .ok out := by
  intro out h
  have := C51_cells h
  obtain ⟨row, hrow⟩ : ∃ row, List.Forall₂ (fun method cell =>
      IsCell T tbl refMethod pairwise confidence methodEB limits draws metric method cell)
      tbl.methods row := by
    obtain ⟨i, hi, rfl⟩ := List.mem_iff_getElem.1 hmet
    have hi' : i < out.length := by rw [← this.length_eq]; exact hi
    exact ⟨out[i], (List.forall₂_iff_get.1 this).2 i hi hi'⟩
  obtain ⟨cell, hcell⟩ : ∃ cell,
      IsCell T tbl refMethod pairwise confidence methodEB limits draws metric method cell := by
    obtain ⟨i, hi, rfl⟩ := List.mem_iff_getElem.1 hmeth
    have hi' : i < row.length := by rw [← hrow.length_eq]; exact hi
    exact ⟨row[i], (List.forall₂_iff_get.1 hrow).2 i hi hi'⟩
  obtain ⟨loss', -, lo, hi, a1, -, a3, a4, -, a6, -⟩ := hcell
  obtain rfl := hasLoss_unique hl a1
  have e := (limitsGet_spec limits metric _ _).2 hlim
  rw [(limitsGet_spec limits metric _ _).2 a3] at e
  cases e
  obtain ⟨v, hv, h | h | h⟩ := hbad
  · exact a4 (h ▸ hv)
  · exact absurd h (not_lt.2 (a6 v hv).1)
  · exact absurd h (not_lt.2 (a6 v hv).2)

/-- C52: the exception for such a cell is an AssertionError. -/
theorem C52_reject_cell {T : Nat → RefDist} {lossRef : List (Flt ℝ)} {tbl : LossTable} {refMethod : Str}
    {pairwise : Bool} {confidence : Flt ℝ} {methodEB : EBMethod} {lower upper : Flt ℝ} {metric : Str}
    {draws : Draws} {method : Str} {loss : List (Flt ℝ)} (hl : HasLoss tbl metric method loss)
    (hbad : ∃ v ∈ loss, v = .nan ∨ v < lower ∨ upper < v) :
    lossCell T lossRef tbl refMethod pairwise confidence methodEB lower upper metric draws method =
      .error .assertion := by
  unfold lossCell
  rw [(column_ok_iff _ _ _ _).2 hl, ok_bind, pyAssert_bind]
  by_cases h1 : (!(loss.any fun v => v.isNaN)) = true
  · rw [if_pos h1, pyAssert_bind, if_neg]
    intro h2
    have := within_order h2
    obtain ⟨v, hv, h | h | h⟩ := hbad
    · exact (noNaN_any loss).1 h1 (h ▸ hv)
    · exact absurd h (not_lt.2 (this v hv).1)
    · exact absurd h (not_lt.2 (this v hv).2)
  · rw [if_neg h1]

/-- The differences of losses within the limits are within plus or minus the range. -/
theorem delta_within {lower upper : Flt ℝ} (hv : ValidLimits lower upper) {xs rs : List ℝ}
    (hx : Within lower upper xs) (hr : Within lower upper rs) :
    Within (upper.sub lower).neg (upper.sub lower) (List.zipWith (· - ·) xs rs) := by
  obtain ⟨v1, v2, v3, v4, v5⟩ := hv
  intro d hd
  obtain ⟨i, hi, rfl⟩ := List.mem_iff_getElem.1 hd
  rw [List.getElem_zipWith]
  rw [List.length_zipWith] at hi
  have h1 := hx xs[i] (List.getElem_mem _)
  have h2 := hr rs[i] (List.getElem_mem _)
  generalize xs[i] = x at *
  generalize rs[i] = r at *
  cases lower <;> cases upper <;> simp_all [Flt.sub, Flt.add, Flt.neg]
  constructor <;> linarith

theorem range_valid {lower upper : Flt ℝ} (hv : ValidLimits lower upper) :
    ValidLimits (upper.sub lower).neg (upper.sub lower) := by
  obtain ⟨v1, v2, v3, v4, v5⟩ := hv
  unfold ValidLimits
  cases lower <;> cases upper <;> simp_all [Flt.sub, Flt.add, Flt.neg]
  linarith

theorem fin_zero_le_range {lower upper : Flt ℝ} (hv : ValidLimits lower upper) :
    Flt.fin (2 * 0) ≤ upper.sub lower := by
  have := (range_ok_iff lower upper).2 hv
  rw [Flt.le_iff] at this
  rw [mul_zero]
  exact this.2

theorem deltas_finVec (xs rs : List ℝ) :
    List.zipWith Flt.sub (finVec xs) (finVec rs) = finVec (List.zipWith (· - ·) xs rs) := by
  unfold finVec
  rw [List.zipWith_map, List.map_zipWith]
  congr 1

/-- A test succeeds for finite data within the limits. -/
theorem getTest_ok (T : Nat → RefDist) {xs : List ℝ} {lower upper : Flt ℝ}
    (hv : ValidLimits lower upper) (hw : Within lower upper xs) (method : EBMethod) (hm : method ≠ .other)
    (counts : List (List Nat)) (hT : 2 ≤ xs.length → IsSymmetric (T (xs.length - 1)))
    (hd : method = .boot → ValidDraws xs.length 1000 counts) :
    ∃ p, getTest T (finVec xs) lower upper method counts = .ok p := by
  have hwv : ∀ v ∈ finVec xs, lower ≤ v ∧ v ≤ upper := by
    intro v hv'
    obtain ⟨x, hx, rfl⟩ := List.mem_map.1 hv'
    exact hw x hx
  by_cases h2 : 2 ≤ xs.length
  · cases method with
    | t =>
      obtain ⟨p, hp, -⟩ := C45_t_test T h2 (hT h2)
      exact ⟨_, hp⟩
    | bernstein =>
      by_cases hinf : lower = upper ∨ lower = .ninf ∨ upper = .pinf
      · exact ⟨_, (C47_degenerate hv (noNaN_finVec xs) hwv (c := 1/2) (by norm_num) (by norm_num)).2.1 hinf⟩
      · obtain ⟨v1, v2, v3, v4, v5⟩ := hv
        cases lower <;> cases upper <;> simp_all
        rename_i l u
        obtain ⟨B, -, -, hp⟩ := C47_bernstein_test h2 (lt_of_le_of_ne v3 hinf)
          (fun x hx => ⟨by simpa using (hw x hx).1, by simpa using (hw x hx).2⟩)
        exact ⟨_, hp⟩
    | boot =>
      obtain ⟨e, p, l, u, -, -, -, -, -, -, -, -, hp, -⟩ := C48_shared h2 (hd rfl) (c := 1/2) (by norm_num) (by norm_num)
      exact ⟨_, hp⟩
    | other => exact absurd rfl hm
  · have h2' : (finVec xs).length ≤ 1 := by simp [finVec]; omega
    cases method with
    | t => exact ⟨_, ((C45_uninformative T (finVec xs) (.fin (1/2))).2.1 (noNaN_finVec xs) (Or.inl h2')).1⟩
    | bernstein =>
      exact ⟨_, ((C47_degenerate hv (noNaN_finVec xs) hwv (c := 1/2) (by norm_num) (by norm_num)).1 (Or.inl h2')).1⟩
    | boot =>
      exact ⟨_, ((C48_uninformative (finVec xs) (.fin (1/2)) defaultNBoot counts).2 (noNaN_finVec xs) (Or.inl h2')).2.1⟩
    | other => exact absurd rfl hm

/-- C52: with all losses finite and within the limits, at least one row, a known method and a
confidence in (0,1), the table is produced. -/
theorem C52_success (T : Nat → RefDist) {tbl : LossTable} {refMethod : Str} (pairwise : Bool)
    {c : ℝ} (h0 : 0 < c) (h1 : c < 1) {methodEB : EBMethod} (hm : methodEB ≠ .other)
    {limits : List (Str × (Flt ℝ × Flt ℝ))} {draws : Str → Str → Draws}
    (hT : 2 ≤ tbl.nrows → IsSymmetric (T (tbl.nrows - 1)))
    (hd : methodEB = .boot → ∀ metric method, ValidDraws tbl.nrows 1000 (draws metric method).eb ∧
      ValidDraws tbl.nrows 1000 (draws metric method).test)
    (href : refMethod ∈ tbl.methods) (hrows : 1 ≤ tbl.nrows) (hmetrics : tbl.metrics ≠ [])
    (hfin : ∀ metric ∈ tbl.metrics, ∃ lower upper, LimitsOf limits metric lower upper ∧
      ValidLimits lower upper ∧ ∀ method ∈ tbl.methods, ∃ xs : List ℝ,
        HasLoss tbl metric method (finVec xs) ∧ xs.length = tbl.nrows ∧ Within lower upper xs) :
    ∃ out, lossSummaryTable T tbl refMethod pairwise (.fin c) methodEB limits draws = .ok out := by
  have cellok : ∀ metric ∈ tbl.metrics, ∃ lower upper lossRef, LimitsOf limits metric lower upper ∧
        lower.le upper = true ∧ HasLoss tbl metric refMethod lossRef ∧ NoNaN lossRef ∧
        within lower upper lossRef = true ∧ ∀ method ∈ tbl.methods, ∃ cell,
          lossCell T lossRef tbl refMethod pairwise (.fin c) methodEB
            lower upper metric (draws metric method) method = .ok cell := by
    intro metric hmet
    obtain ⟨lower, upper, hlim, hv, hall⟩ := hfin metric hmet
    obtain ⟨rs, hr1, hr2, hr3⟩ := hall refMethod href
    refine ⟨lower, upper, finVec rs, hlim, Flt.le_iff.2 ⟨hv.2.1, hv.2.2.1⟩, hr1, noNaN_finVec rs,
      (within_finVec hv.2.1 rs).2 hr3, fun method hmeth => ?_⟩
    obtain ⟨xs, hx1, hx2, hx3⟩ := hall method hmeth
    have hxne : xs ≠ [] := by rintro rfl; simp at hx2; omega
    have hlen : (List.zipWith (· - ·) xs rs).length = tbl.nrows := by simp [hx2, hr2]
    have hdne : List.zipWith (· - ·) xs rs ≠ [] := by
      intro hc; rw [hc] at hlen; simp at hlen; omega
    have hdw := delta_within hv hx3 hr3
    obtain ⟨e1, g1, -⟩ := C50_mean_and_EB T hxne hv hx3 h0 h1 methodEB hm (draws metric method).eb
      (by rw [hx2]; exact hT) (by rw [hx2]; exact fun h => (hd h metric method).1) le_rfl
      (fin_zero_le_range hv)
    obtain ⟨e2, g2, -⟩ := C50_mean_and_EB T hdne (range_valid hv) hdw h0 h1 methodEB hm (draws metric method).eb
      (by rw [hlen]; exact hT) (by rw [hlen]; exact fun h => (hd h metric method).1) le_rfl
      (fin_zero_le_range (range_valid hv))
    obtain ⟨p1, t1⟩ := getTest_ok T (range_valid hv) hdw methodEB hm (draws metric method).test
      (by rw [hlen]; exact hT) (by rw [hlen]; exact fun h => (hd h metric method).2)
    obtain ⟨p2, t2⟩ := getTest_ok T (range_valid hv) hdw methodEB hm (draws metric method).eb
      (by rw [hlen]; exact hT) (by rw [hlen]; exact fun h => (hd h metric method).1)
    unfold lossCell
    rw [(column_ok_iff _ _ _ _).2 hx1, ok_bind, pyAssert_bind,
      if_pos ((noNaN_any _).2 (noNaN_finVec xs)), pyAssert_bind, if_pos ((within_finVec hv.2.1 xs).2 hx3)]
    simp only [deltas_finVec]
    have eself : (Flt.fin (avg xs)).eq (.fin (avg xs)) = true := by simp
    cases pairwise with
    | true =>
      simp only [if_true]
      split_ifs with hs
      · exact ⟨_, rfl⟩
      · rw [(C49_agree T _ _ _ _ _ _ _ _ _ _).2 ⟨g2, t2⟩]
        exact ⟨_, rfl⟩
    | false =>
      simp only [Bool.false_eq_true, if_false]
      rw [g1, ok_bind, mean_finVec hxne]
      rw [pyAssert_bind, if_pos eself]
      split_ifs with hs
      · exact ⟨_, rfl⟩
      · rw [t1, ok_bind]
        exact ⟨_, rfl⟩
  obtain ⟨out, hout⟩ := forall₂_exists (l := tbl.metrics) (R := fun metric row =>
      ∃ lower upper lossRef, LimitsOf limits metric lower upper ∧
        lower.le upper = true ∧ HasLoss tbl metric refMethod lossRef ∧ NoNaN lossRef ∧
        within lower upper lossRef = true ∧
        List.Forall₂ (fun method cell => lossCell T lossRef tbl refMethod pairwise (.fin c) methodEB
          lower upper metric (draws metric method) method = .ok cell) tbl.methods row) (by
    intro metric hmet
    obtain ⟨lower, upper, lossRef, a1, a2, a3, a4, a5, hcell⟩ := cellok metric hmet
    obtain ⟨row, hrow⟩ := forall₂_exists hcell
    exact ⟨row, lower, upper, lossRef, a1, a2, a3, a4, a5, hrow⟩)
  exact ⟨out, summary_ok.2 ⟨href, hrows, hmetrics, hout⟩⟩

/-- C52: if a method and the reference have the same infinite loss on the same row, the comparison is
rejected and there is no table. -/
theorem C52_same_infinity {T : Nat → RefDist} {tbl : LossTable} {refMethod : Str} {pairwise : Bool}
    {confidence : Flt ℝ} {methodEB : EBMethod} {limits : List (Str × (Flt ℝ × Flt ℝ))}
    {draws : Str → Str → Draws} {metric method : Str} (hmet : metric ∈ tbl.metrics)
    (hmeth : method ∈ tbl.methods) (hne : method ≠ refMethod) {loss lossRef : List (Flt ℝ)}
    (hl : HasLoss tbl metric method loss) (hr : HasLoss tbl metric refMethod lossRef)
    {i : Nat} {v : Flt ℝ} (hv : v = .pinf ∨ v = .ninf) (h1 : loss[i]? = some v) (h2 : lossRef[i]? = some v) :
    ∀ out, lossSummaryTable T tbl refMethod pairwise confidence methodEB limits draws ≠ .ok out := by
  intro out h
  have := C51_cells h
  obtain ⟨row, hrow⟩ : ∃ row, List.Forall₂ (fun method cell =>
      IsCell T tbl refMethod pairwise confidence methodEB limits draws metric method cell)
      tbl.methods row := by
    obtain ⟨i, hi, rfl⟩ := List.mem_iff_getElem.1 hmet
    have hi' : i < out.length := by rw [← this.length_eq]; exact hi
    exact ⟨out[i], (List.forall₂_iff_get.1 this).2 i hi hi'⟩
  obtain ⟨cell, hcell⟩ : ∃ cell,
      IsCell T tbl refMethod pairwise confidence methodEB limits draws metric method cell := by
    obtain ⟨i, hi, rfl⟩ := List.mem_iff_getElem.1 hmeth
    have hi' : i < row.length := by rw [← hrow.length_eq]; exact hi
    exact ⟨row[i], (List.forall₂_iff_get.1 hrow).2 i hi hi'⟩
  obtain ⟨loss', lossRef', lo, hi, a1, a2, -, -, -, -, -, -, -, b2, b3⟩ := hcell
  obtain rfl := hasLoss_unique hl a1
  obtain rfl := hasLoss_unique hr a2
  have hnan : ¬ NoNaN (List.zipWith Flt.sub loss lossRef) := by
    intro hc
    apply hc
    have : (List.zipWith Flt.sub loss lossRef)[i]? = some .nan := by
      rw [List.getElem?_zipWith, h1, h2]
      rcases hv with rfl | rfl <;> rfl
    exact List.mem_of_getElem? this
  have ht : ∀ lower upper method counts p,
      getTest T (List.zipWith Flt.sub loss lossRef) lower upper method counts ≠ .ok p := by
    intro lower upper method counts p hp
    cases method with
    | t =>
      rw [(C49_dispatch T _ lower upper counts).1, ((C45_uninformative T _ (.fin (1/2))).1 hnan).1] at hp
      cases hp
    | bernstein =>
      rw [(C49_dispatch T _ lower upper counts).2.1, (C47_reject _ lower upper .nan (Or.inl hnan)).1] at hp
      cases hp
    | boot =>
      rw [(C49_dispatch T _ lower upper counts).2.2, ((C48_uninformative _ .nan _ counts).1 hnan).1] at hp
      cases hp
    | other => cases hp
  cases pairwise with
  | true =>
    obtain ⟨m, hm⟩ := b2 rfl hne
    exact ht _ _ _ _ _ ((C49_agree T _ _ _ _ _ _ _ _ _ _).1 hm).2
  | false => exact ht _ _ _ _ _ ((b3 rfl).2.2 hne)

/-! ## C53 -/

theorem column_reorder (σ : List Nat) (tbl : LossTable) (metric method : Str) :
    (reorderRows σ tbl).column metric method =
      (tbl.column metric method >>= fun l => .ok (reorder σ l)) := by
  unfold LossTable.column reorderRows
  simp only
  rw [List.filter_map]
  have : ((fun c : (Str × Str) × List (Flt ℝ) => decide (c.1 = (metric, method))) ∘
      fun c : (Str × Str) × List (Flt ℝ) => (c.1, reorder σ c.2)) =
      fun c => decide (c.1 = (metric, method)) := rfl
  rw [this]
  generalize (tbl.cols.filter fun c => decide (c.1 = (metric, method))) = f
  rcases f with _ | ⟨c, _ | ⟨c', l⟩⟩ <;> rfl

theorem column_length {tbl : LossTable} (hc : ∀ c ∈ tbl.cols, c.2.length = tbl.nrows) {metric method : Str}
    {l : List (Flt ℝ)} (h : tbl.column metric method = .ok l) : l.length = tbl.nrows := by
  obtain ⟨before, after, hs, -⟩ := (column_ok_iff _ _ _ _).1 h
  exact hc ((metric, method), l) (by rw [hs]; simp)

/-- C53: the order of the rows does not matter.  For the bootstrap the random counts belong to data
points, so they are reordered too; for the other methods the draws are irrelevant. -/
theorem C53_row_order (T : Nat → RefDist) {tbl : LossTable} (hc : ∀ c ∈ tbl.cols, c.2.length = tbl.nrows)
    {σ : List Nat} (hσ : IsPerm σ tbl.nrows) (refMethod : Str) (pairwise : Bool) (confidence : Flt ℝ)
    (methodEB : EBMethod) (limits : List (Str × (Flt ℝ × Flt ℝ))) (draws draws' : Str → Str → Draws)
    (hd : methodEB = .boot → ∀ metric method, draws' metric method = reorderDraws σ (draws metric method) ∧
      (∀ row ∈ (draws metric method).eb, row.length = tbl.nrows) ∧
      ∀ row ∈ (draws metric method).test, row.length = tbl.nrows) :
    lossSummaryTable T (reorderRows σ tbl) refMethod pairwise confidence methodEB limits draws' =
      lossSummaryTable T tbl refMethod pairwise confidence methodEB limits draws := by
  unfold lossSummaryTable
  have hcell : ∀ lower upper metric method lossRef, lossRef.length = tbl.nrows →
      lossCell T (reorder σ lossRef) (reorderRows σ tbl) refMethod pairwise confidence methodEB lower upper
        metric (draws' metric method) method =
      lossCell T lossRef tbl refMethod pairwise confidence methodEB lower upper
        metric (draws metric method) method := by
    intro lower upper metric method lossRef hr
    unfold lossCell
    rw [column_reorder]
    cases hl : tbl.column metric method with
    | error e => rfl
    | ok loss =>
      have hlen := column_length hc hl
      have hp := reorder_perm (l := loss) (by rw [hlen]; exact hσ)
      simp only [ok_bind]
      rw [any_perm hp, within_perm hp, mean_perm hp, ← reorder_zipWith _ (by rw [hlen]; exact perm_lt hσ)
        (by rw [hr]; exact perm_lt hσ)]
      have hzl : (List.zipWith Flt.sub loss lossRef).length = tbl.nrows := by simp [hlen, hr]
      have hp2 := reorder_perm (l := List.zipWith Flt.sub loss lossRef) (by rw [hzl]; exact hσ)
      have b1 : methodEB = .boot → ∀ c n a b d,
          bootEBTest (reorder σ loss) c n (draws' metric method).eb a b d =
          bootEBTest loss c n (draws metric method).eb a b d := by
        intro hm c n a b d
        obtain ⟨e, h1, h2⟩ := hd hm metric method
        rw [e]
        exact bootEBTest_reorder (by rw [hlen]; exact hσ) (by rw [hlen]; exact h1) c n a b d
      have b2 : methodEB = .boot → ∀ c n a b d,
          bootEBTest (reorder σ (List.zipWith Flt.sub loss lossRef)) c n (draws' metric method).eb a b d =
          bootEBTest (List.zipWith Flt.sub loss lossRef) c n (draws metric method).eb a b d := by
        intro hm c n a b d
        obtain ⟨e, h1, h2⟩ := hd hm metric method
        rw [e]
        exact bootEBTest_reorder (by rw [hzl]; exact hσ) (by rw [hzl]; exact h1) c n a b d
      have b3 : methodEB = .boot → ∀ c n a b d,
          bootEBTest (reorder σ (List.zipWith Flt.sub loss lossRef)) c n (draws' metric method).test a b d =
          bootEBTest (List.zipWith Flt.sub loss lossRef) c n (draws metric method).test a b d := by
        intro hm c n a b d
        obtain ⟨e, h1, h2⟩ := hd hm metric method
        rw [e]
        exact bootEBTest_reorder (by rw [hzl]; exact hσ) (by rw [hzl]; exact h2) c n a b d
      simp only [getMeanEBTest_perm hp2 T _ _ _ _ _ b2, getMeanEB_perm hp T _ _ _ _ _ b1,
        getTest_perm hp2 T _ _ _ b3]
  have hm : (reorderRows σ tbl).methods = tbl.methods := rfl
  have hn : (reorderRows σ tbl).nrows = tbl.nrows := rfl
  have hk : (reorderRows σ tbl).metrics = tbl.metrics := rfl
  rw [hm, hn, hk]
  congr 1
  funext _
  congr 1
  funext _
  congr 1
  funext metric
  simp only
  congr 1
  funext _
  rw [column_reorder]
  cases hl : tbl.column metric refMethod with
  | error e => rfl
  | ok lossRef =>
    have hlen := column_length hc hl
    have hp := reorder_perm (l := lossRef) (by rw [hlen]; exact hσ)
    simp only [ok_bind]
    rw [any_perm hp, within_perm hp]
    simp only [hcell _ _ _ _ lossRef hlen]

/-! ## A concrete table -/

/-- Two methods and one metric with limits, two data points. -/
noncomputable def exTable : LossTable :=
  ⟨["L".toList], ["A".toList, "B".toList], 2,
    [(("L".toList, "A".toList), finVec [0, 1]), (("L".toList, "B".toList), finVec [1, 1 / 2])]⟩

theorem exTable_A : HasLoss exTable "L".toList "A".toList (finVec [0, 1]) :=
  ⟨[], [(("L".toList, "B".toList), finVec [1, 1 / 2])], rfl, by simp, by simp⟩

theorem exTable_B : HasLoss exTable "L".toList "B".toList (finVec [1, 1 / 2]) :=
  ⟨[(("L".toList, "A".toList), finVec [0, 1])], [], rfl, by simp, by simp⟩

theorem exTable_limits : LimitsOf [("L".toList, (Flt.fin 0, Flt.fin (2 : ℝ)))] "L".toList (.fin 0) (.fin 2) :=
  .given [] [] _ _ rfl (by simp)

theorem exTable_success (pw : Bool) : ∃ out, lossSummaryTable studentT exTable "A".toList pw (.fin (19 / 20))
    .t [("L".toList, (Flt.fin 0, Flt.fin 2))] (fun _ _ => ⟨[], []⟩) = .ok out := by
  apply C52_success studentT pw (by norm_num) (by norm_num) (by simp)
  · intro _; exact studentT_isSymmetric le_rfl
  · intro h; cases h
  · simp [exTable]
  · simp [exTable]
  · simp [exTable]
  · intro metric hm
    simp only [exTable, List.mem_singleton] at hm
    subst hm
    refine ⟨.fin 0, .fin 2, exTable_limits, ⟨by simp, by simp, by simp, by simp, by simp⟩, ?_⟩
    intro method hm
    simp only [exTable, List.mem_cons, List.not_mem_nil, or_false] at hm
    rcases hm with rfl | rfl
    · exact ⟨_, exTable_A, rfl, by intro x hx; fin_cases hx <;> simp⟩
    · exact ⟨_, exTable_B, rfl, by intro x hx; fin_cases hx <;> first | (simp; done) | (simp; norm_num)⟩

/-- C51 and C53 apply to it: the mean losses are 1/2 and 3/4, and swapping the rows changes nothing. -/
example : ∃ a b : Flt ℝ × Flt ℝ × Flt ℝ,
    lossSummaryTable studentT exTable "A".toList true (.fin (19 / 20))
      .t [("L".toList, (Flt.fin 0, Flt.fin 2))] (fun _ _ => ⟨[], []⟩) = .ok [[a, b]] ∧
    a.1 = .fin (1 / 2) ∧ a.2 = (.nan, .nan) ∧ b.1 = .fin (3 / 4) ∧ b.2.2 ≠ .nan ∧
    lossSummaryTable studentT (reorderRows [1, 0] exTable) "A".toList true (.fin (19 / 20))
      .t [("L".toList, (Flt.fin 0, Flt.fin 2))] (fun _ _ => ⟨[], []⟩) = .ok [[a, b]] := by
  obtain ⟨out, hout⟩ := exTable_success true
  have h := C51_cells hout
  simp only [exTable] at h
  cases h with
  | cons h1 h2 =>
    cases h2
    cases h1 with
    | cons ha h3 =>
      cases h3 with
      | cons hb h4 =>
        cases h4
        rename_i a b
        refine ⟨a, b, hout, ?_, ?_, ?_, ?_, ?_⟩
        · rw [C51_finite_mean ha (by simp) exTable_A]; norm_num [avg]
        · obtain ⟨_, _, _, _, _, _, _, _, _, _, _, _, h, _⟩ := ha
          exact h rfl rfl
        · rw [C51_finite_mean hb (by simp) exTable_B]; norm_num [avg]
        · intro hn
          have := (C51_p_missing hb).1.1 hn
          simp at this
        · rw [C53_row_order studentT (tbl := exTable) (by simp [exTable, finVec]) (σ := [1, 0]) (List.Perm.swap 0 1 []) _ _ _ _ _
            (fun _ _ => ⟨[], []⟩) (fun _ _ => ⟨[], []⟩) (by intro h; cases h)]
          exact hout

/-- C52: the same losses do not pass a limit of 1/2. -/
example : ∀ out, lossSummaryTable studentT exTable "A".toList true (.fin (19 / 20))
    .t [("L".toList, (Flt.fin 0, Flt.fin (1 / 2)))] (fun _ _ => ⟨[], []⟩) ≠ .ok out :=
  C52_reject (metric := "L".toList) (method := "B".toList) (by simp [exTable]) (by simp [exTable]) exTable_B
    (.given [] [] _ _ rfl (by simp)) ⟨.fin 1, by simp [finVec], Or.inr (Or.inr (by
      rw [← not_le]; simp; norm_num))⟩

/-- C52: two methods that are both infinitely wrong on the first data point. -/
example (pw : Bool) (m : EBMethod) : ∀ out, lossSummaryTable studentT
    ⟨["L".toList], ["A".toList, "B".toList], 2,
      [(("L".toList, "A".toList), [.pinf, .fin 1]), (("L".toList, "B".toList), [.pinf, .fin 0])]⟩
    "A".toList pw (.fin (19 / 20)) m [] (fun _ _ => ⟨[], []⟩) ≠ .ok out :=
  C52_same_infinity (metric := "L".toList) (method := "B".toList) (i := 0) (v := .pinf)
    (loss := [.pinf, .fin 0]) (lossRef := [.pinf, .fin 1]) (by simp) (by simp) (by simp)
    ⟨[(("L".toList, "A".toList), [.pinf, .fin 1])], [], rfl, by simp, by simp⟩
    ⟨[], [(("L".toList, "B".toList), [.pinf, .fin 0])], rfl, by simp, by simp⟩ (Or.inl rfl) rfl rfl

end Mlp.Props
