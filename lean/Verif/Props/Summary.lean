import Verif.Props.TTest
import Verif.Props.Bernstein
import Verif.Props.Boot

/-! # C48, C49, C50: bootstrap summaries and the three summary entry points -/

namespace Mlp.Props
open Mlp.Paper Mlp.Spec Mlp.Boot Mlp.Lemmas

/-- The means of the resampled data sets: replicate `row` draws the `i`-th point `row[i]` times. -/
noncomputable def resampledMeans (xs : List ℝ) (counts : List (List Nat)) : List ℝ :=
  counts.map fun row => (List.zipWith (fun (a : ℝ) (b : Nat) => a * (b : ℝ)) xs row).sum / (xs.length : ℝ)

/-- A possible outcome of the bootstrap draws: `nBoot ≥ 1` rows of multinomial counts. -/
def ValidDraws (N nBoot : Nat) (counts : List (List Nat)) : Prop :=
  1 ≤ nBoot ∧ counts.length = nBoot ∧ ∀ row ∈ counts, IsMultinomial N row

theorem zipWith_cast (xs : List ℝ) (row : List Nat) :
    List.zipWith (fun (a b : ℝ) => a * b) xs (row.map fun (c : Nat) => (c : ℝ)) =
      List.zipWith (fun (a : ℝ) (b : Nat) => a * (b : ℝ)) xs row := by
  rw [List.zipWith_map_right]

/-- The bootstrap means as computed. -/
theorem muBoot_eq {xs : List ℝ} {nBoot : Nat} {counts : List (List Nat)}
    (hd : ValidDraws xs.length nBoot counts) :
    (counts.map fun row => row.map fun (c : Nat) => (c : ℝ)).map (fun (w : List ℝ) =>
      Flt.fin (meanK (List.zipWith (fun (a b : ℝ) => a * b) xs w))) =
      finVec (resampledMeans xs counts) := by
  unfold finVec resampledMeans
  rw [List.map_map, List.map_map]
  apply List.map_congr_left
  intro row hr
  simp only [Function.comp]
  rw [zipWith_cast]
  unfold meanK
  rw [List.length_zipWith, (hd.2.2 row hr).1, Nat.min_self]

/-- C48: for at least two numbers and any outcome of the draws: the error bar is `error_bar` of the
resampled means around the mean, the p-value is their `significance` against 0, and the interval is
their `percentile` interval, all from the same draws; `boot_EB` and `boot_test` return the same
numbers. -/
theorem C48_shared {xs : List ℝ} (h : 2 ≤ xs.length) {nBoot : Nat} {counts : List (List Nat)}
    (hd : ValidDraws xs.length nBoot counts) {c : ℝ} (h0 : 0 < c) (h1 : c < 1) :
    ∃ e p l u : ℝ,
      bootEBTest (finVec xs) (.fin c) nBoot counts true true true = .ok (.fin e, .fin p, .fin l, .fin u) ∧
      0 ≤ e ∧ 0 ≤ p ∧ p ≤ 1 ∧
      errorBar (finVec (resampledMeans xs counts)) (.fin (avg xs)) (.fin c) = .ok (.fin e) ∧
      significance (finVec (resampledMeans xs counts)) (.scalar (.fin 0)) = .ok (.fin p) ∧
      percentile (finVec (resampledMeans xs counts)) (.fin c) = .ok (.fin l, .fin u) ∧
      bootEB (finVec xs) (.fin c) nBoot counts = .ok (.fin e) ∧
      bootTest (finVec xs) nBoot counts = .ok (.fin p) ∧
      avg xs - e ≤ l ∧ u ≤ avg xs + e := by
  have hne : resampledMeans xs counts ≠ [] := by
    intro hc
    have := congrArg List.length hc
    simp only [resampledMeans, List.length_map, List.length_nil] at this
    have := hd.1; have := hd.2.1; omega
  have hw := (C36_weights (K := ℝ) (N := xs.length) (by omega) hd.1 hd.2.1 hd.2.2).1
  have e := (noNaN_any (finVec xs)).2 (noNaN_finVec xs)
  obtain ⟨eb, l, u, q1, q2, -, -, -, q3, q4, q5, -⟩ := C40_finite hne h0 h1 (avg xs)
  obtain ⟨p, r1, r2, r3, -⟩ := C41_scalar (boot := finVec (resampledMeans xs counts))
    (by simpa [finVec] using hne) (noNaN_finVec _) (r := .fin 0) (by simp)
  have run : ∀ conf a b d, bootEBTest (finVec xs) conf nBoot counts a b d = (do
      let pval ← (if b then significance (finVec (resampledMeans xs counts)) (.scalar (.fin 0))
        else pure (.fin 1) : Py (Flt ℝ))
      let EB ← (if a then errorBar (finVec (resampledMeans xs counts)) (.fin (avg xs)) conf
        else pure .pinf : Py (Flt ℝ))
      let CI ← (if d then percentile (finVec (resampledMeans xs counts)) conf
        else pure (.ninf, .pinf) : Py (Flt ℝ × Flt ℝ))
      return (EB, pval, CI)) := by
    intro conf a b d
    unfold bootEBTest
    rw [pyAssert_bind, if_pos e, if_neg (informative_finVec h)]
    simp only [finVals_finVec]
    rw [hw, ok_bind]
    simp only [muBoot_eq hd]
    rfl
  refine ⟨eb, p, l, u, ?_, q3, r2, r3, q1, r1, q2, ?_, ?_, q4, q5⟩
  · rw [run]; simp only [if_true, r1, q1, q2, ok_bind, pure_eq_ok]
  · unfold bootEB
    rw [run]
    simp only [if_true, Bool.false_eq_true, if_false, q1, ok_bind, pure_eq_ok, pyAssert_bind, Flt.le_fin,
      decide_eq_true q3]
  · unfold bootTest
    rw [run]
    simp only [if_true, Bool.false_eq_true, if_false, r1, ok_bind, pure_eq_ok, pyAssert_bind, Flt.le_fin,
      decide_eq_true r2, decide_eq_true r3, Bool.and_self]

/-- C48: too little or infinite data gives the uninformative values (whatever the confidence); NaN
data is rejected. -/
theorem C48_uninformative (x : List (Flt ℝ)) (conf : Flt ℝ) (nBoot : Nat) (counts : List (List Nat)) :
    (¬ NoNaN x → bootTest x nBoot counts = .error .assertion ∧
      bootEB x conf nBoot counts = .error .assertion) ∧
    (NoNaN x → (x.length ≤ 1 ∨ Flt.pinf ∈ x ∨ Flt.ninf ∈ x) →
      (∀ a b d, bootEBTest x conf nBoot counts a b d = .ok (.pinf, .fin 1, .ninf, .pinf)) ∧
      bootTest x nBoot counts = .ok (.fin 1) ∧ bootEB x conf nBoot counts = .ok .pinf) := by
  constructor
  · intro h
    have e : ¬ ((!(x.any fun v => v.isNaN)) = true) := fun h' => h ((noNaN_any x).1 h')
    unfold bootTest bootEB bootEBTest
    simp only [pyAssert_bind, if_neg e, error_bind, and_self]
  · intro h h2
    have e := (noNaN_any x).2 h
    have u : uninformative x = true := by
      rw [uninformative_iff]
      rcases h2 with h2 | h2
      · exact Or.inl h2
      · right
        rintro ⟨xs, rfl⟩
        rcases h2 with h2 | h2 <;> simp [finVec] at h2
    have run : ∀ conf a b d, bootEBTest x conf nBoot counts a b d = .ok (.pinf, .fin 1, .ninf, .pinf) := by
      intro conf a b d
      unfold bootEBTest
      rw [pyAssert_bind, if_pos e, if_pos u]; rfl
    refine ⟨run conf, ?_, ?_⟩
    · unfold bootTest
      rw [run, ok_bind, pyAssert_bind, if_pos (by simp)]; rfl
    · unfold bootEB
      rw [run, ok_bind, pyAssert_bind, if_pos (by rw [Flt.le_iff]; simp)]; rfl

/-! ## C49 -/

/-- The combined bootstrap call succeeds exactly when the two separate calls do, with the same
numbers. -/
theorem boot_split (x : List (Flt ℝ)) (conf : Flt ℝ) (nBoot : Nat) (counts : List (List Nat))
    (EB p : Flt ℝ) :
    (∃ CI, bootEBTest x conf nBoot counts true true false = .ok (EB, p, CI)) ↔
      bootEB x conf nBoot counts = .ok EB ∧ bootTest x nBoot counts = .ok p := by
  by_cases hx : NoNaN x
  · by_cases hu : uninformative x = true
    · have hu' : x.length ≤ 1 ∨ Flt.pinf ∈ x ∨ Flt.ninf ∈ x := by
        rw [uninformative_iff] at hu
        rcases hu with hu | hu
        · exact Or.inl hu
        · right
          by_contra hc
          push Not at hc
          apply hu
          have : (x.all fun v => v.isFinite) = true := by
            rw [List.all_eq_true]
            intro v hv
            cases v with
            | fin r => rfl
            | pinf => exact absurd hv hc.1
            | ninf => exact absurd hv hc.2
            | nan => exact absurd hv hx
          exact (Flt.all_finite_iff x).1 this
      obtain ⟨a1, a2, a3⟩ := (C48_uninformative x conf nBoot counts).2 hx hu'
      rw [a1, a2, a3]
      constructor
      · rintro ⟨CI, h⟩; cases h; exact ⟨rfl, rfl⟩
      · rintro ⟨h1, h2⟩; cases h1; cases h2; exact ⟨_, rfl⟩
    · have e := (noNaN_any x).2 hx
      cases hw : Boot.bootWeights (K := ℝ) (finVals x).length nBoot 0 counts with
      | error err =>
        have run : ∀ conf a b d, bootEBTest x conf nBoot counts a b d = .error err := by
          intro conf a b d
          unfold bootEBTest
          rw [pyAssert_bind, if_pos e, if_neg hu]
          simp only [hw, error_bind]
        unfold bootEB bootTest
        rw [run, run, run]
        simp [error_bind]
      | ok w =>
        obtain ⟨-, hB, hlen, -, -⟩ := C36_floor hw
        generalize hmb : (w.map fun (w : List ℝ) =>
          (Flt.fin (meanK (List.zipWith (fun (a b : ℝ) => a * b) (finVals x) w)) : Flt ℝ)) = mb
        have hmne : mb ≠ [] := by
          rintro rfl
          have := congrArg List.length hmb
          simp only [List.length_map, List.length_nil] at this
          omega
        have hmn : NoNaN mb := by
          subst hmb; simp [NoNaN]
        obtain ⟨p', r1, r2, r3, -⟩ := C41_scalar hmne hmn (r := .fin (0 : ℝ)) (by simp)
        have run : ∀ conf a b, bootEBTest x conf nBoot counts a b false = (do
            let pval ← (if b then significance mb (.scalar (.fin 0))
              else pure (.fin 1) : Py (Flt ℝ))
            let EB ← (if a then errorBar mb (.fin (meanK (finVals x))) conf
              else pure .pinf : Py (Flt ℝ))
            return (EB, pval, (.ninf, .pinf))) := by
          intro conf a b
          unfold bootEBTest
          rw [pyAssert_bind, if_pos e, if_neg hu]
          simp only [hw, ok_bind, hmb, Bool.false_eq_true, if_false, pure_eq_ok]
        unfold bootEB bootTest
        rw [run, run, run]
        simp only [if_true, Bool.false_eq_true, if_false, r1, ok_bind, pure_eq_ok, pyAssert_bind,
          Flt.le_fin, decide_eq_true r2, decide_eq_true r3, Bool.and_self]
        cases he : errorBar mb (.fin (meanK (finVals x))) conf with
        | error err => simp [error_bind]
        | ok eb =>
          have hpos : (Flt.fin 0).le eb = true := by
            cases hq : percentile mb conf with
            | error err => unfold errorBar at he; rw [hq] at he; cases he
            | ok LU =>
              obtain ⟨LB, UB⟩ := LU
              obtain ⟨c1, c2⟩ := C40_error_bar hq (.fin (meanK (finVals x)))
              rw [he] at c1; cases c1
              rw [Flt.le_iff]
              exact ⟨(c2 _ rfl).2, (c2 _ rfl).1⟩
          simp only [ok_bind, hpos, if_true]
          simp
  · have hn := (C48_uninformative x conf nBoot counts).1 hx
    rw [hn.1, hn.2]
    have e : ¬ ((!(x.any fun v => v.isNaN)) = true) := fun h' => hx ((noNaN_any x).1 h')
    unfold bootEBTest
    simp only [pyAssert_bind, if_neg e]
    simp

/-- C49: the combined call returns `(mu, EB, p)` exactly when `get_mean_and_EB` returns `(mu, EB)` and
`get_test` returns `p`, for the same data, options and random outcome; so it fails exactly when one
of them fails. -/
theorem C49_agree (T : Nat → RefDist) (x : List (Flt ℝ)) (conf minEB lower upper : Flt ℝ)
    (method : EBMethod) (counts : List (List Nat)) (mu EB p : Flt ℝ) :
    getMeanEBTest T x conf minEB lower upper method counts = .ok (mu, EB, p) ↔
      getMeanEB T x conf minEB lower upper method counts = .ok (mu, EB) ∧
      getTest T x lower upper method counts = .ok p := by
  by_cases hwi : within lower upper x = true
  swap
  · unfold getMeanEBTest getMeanEB
    rw [pyAssert_bind, pyAssert_bind, if_neg hwi, if_neg hwi]
    simp
  unfold getMeanEBTest getMeanEB getTest
  rw [pyAssert_bind, pyAssert_bind, if_pos hwi, if_pos hwi]
  have key : ∀ (f : Py (Flt ℝ × Flt ℝ)) (g h : Py (Flt ℝ)),
      (∀ a b, f = .ok (a, b) ↔ g = .ok a ∧ h = .ok b) →
      ((f >>= fun r => Util.clipChk (Flt.mean x) lower upper >>= fun mu =>
          clipEB mu r.1 lower upper minEB >>= fun EB => pure (mu, EB, r.2)) = .ok (mu, EB, p) ↔
        (g >>= fun EB => Util.clipChk (Flt.mean x) lower upper >>= fun mu =>
          clipEB mu EB lower upper minEB >>= fun EB => pure (mu, EB)) = .ok (mu, EB) ∧ h = .ok p) := by
    intro f g h hfg
    simp only [bind_ok_iff, pure_eq_ok, Except.ok.injEq, Prod.mk.injEq]
    constructor
    · rintro ⟨⟨a, b⟩, hf, m, hm, e, he, rfl, rfl, rfl⟩
      obtain ⟨hg, hh⟩ := (hfg a b).1 hf
      exact ⟨⟨a, hg, m, hm, e, he, rfl, rfl⟩, hh⟩
    · rintro ⟨⟨a, hg, m, hm, e, he, rfl, rfl⟩, hh⟩
      exact ⟨(a, p), (hfg a p).2 ⟨hg, hh⟩, m, hm, e, he, rfl, rfl, rfl⟩
  cases method with
  | t =>
    apply key
    intro a b
    simp only [bind_ok_iff, pure_eq_ok, Except.ok.injEq, Prod.mk.injEq]
    constructor
    · rintro ⟨a', h1, b', h2, rfl, rfl⟩; exact ⟨h1, h2⟩
    · rintro ⟨h1, h2⟩; exact ⟨a, h1, b, h2, rfl, rfl⟩
  | bernstein =>
    apply key
    intro a b
    simp only [bind_ok_iff, pure_eq_ok, Except.ok.injEq, Prod.mk.injEq]
    constructor
    · rintro ⟨a', h1, b', h2, rfl, rfl⟩; exact ⟨h1, h2⟩
    · rintro ⟨h1, h2⟩; exact ⟨a, h1, b, h2, rfl, rfl⟩
  | boot =>
    apply key
    intro a b
    rw [← boot_split]
    simp only [bind_ok_iff, pure_eq_ok, Except.ok.injEq, Prod.mk.injEq]
    constructor
    · rintro ⟨⟨a', b', CI⟩, h1, rfl, rfl⟩; exact ⟨CI, h1⟩
    · rintro ⟨CI, h1⟩; exact ⟨(a, b, CI), h1, rfl, rfl⟩
  | other =>
    apply key
    intro a b
    simp

/-- C49: data outside the limits is rejected by both entry points with error bars. -/
theorem C49_reject (T : Nat → RefDist) (x : List (Flt ℝ)) (conf minEB lower upper : Flt ℝ)
    (method : EBMethod) (counts : List (List Nat))
    (hw : ∃ v ∈ x, lower.le v = false ∨ v.le upper = false) :
    getMeanEBTest T x conf minEB lower upper method counts = .error .assertion ∧
    getMeanEB T x conf minEB lower upper method counts = .error .assertion := by
  have hwi : ¬ (within lower upper x = true) := by
    unfold within
    rw [Bool.and_eq_true, List.all_eq_true, List.all_eq_true]
    rintro ⟨h1, h2⟩
    obtain ⟨v, hv, h | h⟩ := hw
    · rw [h1 v hv] at h; cases h
    · rw [h2 v hv] at h; cases h
  unfold getMeanEBTest getMeanEB
  rw [pyAssert_bind, pyAssert_bind, if_neg hwi, if_neg hwi]
  exact ⟨rfl, rfl⟩

/-! ## C50 -/

theorem avg_mem {xs : List ℝ} (hne : xs ≠ []) {lower upper : Flt ℝ} (hw : Within lower upper xs) :
    lower ≤ .fin (avg xs) ∧ .fin (avg xs) ≤ upper := by
  have hn : (0 : ℝ) < xs.length := by
    have : 0 < xs.length := List.length_pos_iff.2 hne
    exact_mod_cast this
  obtain ⟨x0, xs0, hx0⟩ := List.exists_cons_of_ne_nil hne
  have hx0' : x0 ∈ xs := by simp [hx0]
  have h1 : ∀ l : ℝ, (∀ x ∈ xs, l ≤ x) → l ≤ avg xs := by
    intro l hl
    unfold avg
    rw [le_div_iff₀ hn]
    have := List.card_nsmul_le_sum xs l hl
    rw [nsmul_eq_mul] at this
    linarith
  have h2 : ∀ u : ℝ, (∀ x ∈ xs, x ≤ u) → avg xs ≤ u := by
    intro u hu
    unfold avg
    rw [div_le_iff₀ hn]
    have := List.sum_le_card_nsmul xs u hu
    rw [nsmul_eq_mul] at this
    linarith
  constructor
  · cases lower with
    | fin l => rw [Flt.fin_le_fin]; exact h1 l fun x hx => Flt.fin_le_fin.1 (hw x hx).1
    | ninf => simp
    | pinf => exact absurd (hw x0 hx0').1 (by simp)
    | nan => exact absurd (hw x0 hx0').1 (by simp)
  · cases upper with
    | fin u => rw [Flt.fin_le_fin]; exact h2 u fun x hx => Flt.fin_le_fin.1 (hw x hx).2
    | ninf => exact absurd (hw x0 hx0').2 (by simp)
    | pinf => simp
    | nan => simp

theorem mean_finVec {xs : List ℝ} (hne : xs ≠ []) : Flt.mean (finVec xs) = .fin (avg xs) :=
  Flt.mean_fin xs hne

theorem clipChk_id {a lower upper : Flt ℝ} (ha : a ≠ .nan) (hl : lower ≠ .nan) (hu : upper ≠ .nan)
    (h1 : lower ≤ a) (h2 : a ≤ upper) : Util.clipChk a lower upper = .ok a := by
  unfold Util.clipChk
  rw [Flt.clip_id ha hl hu h1 h2]
  have : a.eq a = true := Flt.eq_iff.2 ⟨ha, rfl⟩
  simp only [this, Bool.true_or, pyAssert_bind, if_true]
  rfl

/-- The raw error bar of any method is a non-negative float for valid input. -/
theorem raw_EB (T : Nat → RefDist) {xs : List ℝ} {lower upper : Flt ℝ}
    (hv : ValidLimits lower upper) (hw : Within lower upper xs) {c : ℝ} (h0 : 0 < c) (h1 : c < 1)
    (method : EBMethod) (hm : method ≠ .other) (counts : List (List Nat))
    (hT : 2 ≤ xs.length → IsSymmetric (T (xs.length - 1)))
    (hd : method = .boot → ValidDraws xs.length 1000 counts) :
    ∃ e : Flt ℝ, e ≠ .nan ∧ .fin 0 ≤ e ∧ (match method with
      | .t => tEB T (finVec xs) (.fin c)
      | .bernstein => bernsteinEB (finVec xs) lower upper (.fin c)
      | .boot => bootEB (finVec xs) (.fin c) 1000 counts
      | .other => .error .assertion : Py (Flt ℝ)) = .ok e := by
  by_cases h2 : 2 ≤ xs.length
  · cases method with
    | t =>
      obtain ⟨e, he, hp, -⟩ := C45_t_EB T h2 (hT h2) h0 h1
      exact ⟨.fin e, by simp, by simpa using hp, he⟩
    | bernstein =>
      by_cases hinf : lower = .ninf ∨ upper = .pinf
      · refine ⟨.pinf, by simp, by simp, (C47_degenerate hv (noNaN_finVec xs) ?_ h0 h1).2.2 hinf⟩
        intro v hv'
        obtain ⟨x, hx, rfl⟩ := List.mem_map.1 hv'
        exact hw x hx
      · obtain ⟨v1, v2, v3, v4, v5⟩ := hv
        cases lower <;> cases upper <;> simp_all
        rename_i l u
        obtain ⟨he, hp, -⟩ := C47_bernstein_EB h2 v3
          (fun x hx => ⟨by simpa using (hw x hx).1, by simpa using (hw x hx).2⟩) h0 h1
        exact ⟨.fin _, by simp, by simpa using hp, he⟩
    | boot =>
      obtain ⟨e, p, l, u, -, hp, -, -, -, -, -, he, -⟩ := C48_shared h2 (hd rfl) h0 h1
      exact ⟨.fin e, by simp, by simpa using hp, he⟩
    | other => exact absurd rfl hm
  · have h2' : (finVec xs).length ≤ 1 := by simp [finVec]; omega
    cases method with
    | t =>
      exact ⟨.pinf, by simp, by simp,
        ((C45_uninformative T (finVec xs) (.fin c)).2.1 (noNaN_finVec xs) (Or.inl h2')).2 ⟨c, rfl, h0, h1⟩⟩
    | bernstein =>
      have hr := (range_ok_iff lower upper).2 hv
      rw [Flt.le_iff] at hr
      refine ⟨upper.sub lower, hr.1, hr.2, ((C47_degenerate hv (noNaN_finVec xs) ?_ h0 h1).1 (Or.inl h2')).2⟩
      intro v hv'
      obtain ⟨x, hx, rfl⟩ := List.mem_map.1 hv'
      exact hw x hx
    | boot =>
      exact ⟨.pinf, by simp, by simp,
        ((C48_uninformative (finVec xs) (.fin c) defaultNBoot counts).2 (noNaN_finVec xs) (Or.inl h2')).2.2⟩
    | other => exact absurd rfl hm

/-- C50: for finite data within the limits, every method returns the exact average, which is within
the limits, and a bar between the minimum and the trivial bar. -/
theorem C50_mean_and_EB (T : Nat → RefDist) {xs : List ℝ} (hne : xs ≠ []) {lower upper : Flt ℝ}
    (hv : ValidLimits lower upper) (hw : Within lower upper xs) {c : ℝ} (h0 : 0 < c) (h1 : c < 1)
    (method : EBMethod) (hm : method ≠ .other) (counts : List (List Nat))
    (hT : 2 ≤ xs.length → IsSymmetric (T (xs.length - 1)))
    (hd : method = .boot → ValidDraws xs.length 1000 counts)
    {b : ℝ} (hb : 0 ≤ b) (hb2 : .fin (2 * b) ≤ upper.sub lower) :
    ∃ e : Flt ℝ, getMeanEB T (finVec xs) (.fin c) (.fin b) lower upper method counts =
        .ok (.fin (avg xs), e) ∧
      lower ≤ .fin (avg xs) ∧ .fin (avg xs) ≤ upper ∧ e ≠ .nan ∧ .fin b ≤ e ∧
      ∀ l u : ℝ, lower = .fin l → upper = .fin u → e ≤ .fin (max (u - avg xs) (avg xs - l)) := by
  obtain ⟨e0, hnan, hpos, he0⟩ := raw_EB T hv hw h0 h1 method hm counts hT hd
  obtain ⟨ha1, ha2⟩ := avg_mem hne hw
  obtain ⟨e, he, -, hcl, -⟩ := C44_clip (EB := e0) hv hb ha1 ha2 hb2
  obtain ⟨c1, c2, c3, -⟩ := hcl hnan
  refine ⟨e, ?_, ha1, ha2, c1, c2, c3⟩
  unfold getMeanEB
  rw [pyAssert_bind, if_pos ((within_finVec hv.2.1 xs).2 hw)]
  cases method with
  | other => exact absurd rfl hm
  | _ =>
    dsimp only [defaultNBoot] at he0 ⊢
    rw [he0, ok_bind, mean_finVec hne, clipChk_id (by simp) hv.1 hv.2.1 ha1 ha2, ok_bind, he, ok_bind]
    rfl

theorem clip_le_eq {b t x : ℝ} (h : b ≤ t) :
    (if x < b then b else if t < x then t else x) = max b (min x t) := by
  split_ifs with h1 h2
  · rw [max_eq_left]; exact (min_le_left _ _).trans h1.le
  · rw [min_eq_right h2.le, max_eq_right h]
  · rw [min_eq_left (not_lt.1 h2), max_eq_right (not_lt.1 h1)]

/-- C50: the bars of the three methods in numbers: the method's own bar, cut at the trivial bar and
raised to the minimum. -/
theorem C50_bar_value (T : Nat → RefDist) {xs : List ℝ} (h2 : 2 ≤ xs.length) {l u : ℝ} (hlu : l ≤ u)
    (hw : ∀ x ∈ xs, l ≤ x ∧ x ≤ u) {c : ℝ} (h0 : 0 < c) (h1 : c < 1) {counts : List (List Nat)}
    {b : ℝ} (hb : 0 ≤ b) (hb2 : 2 * b ≤ u - l) :
    (IsSymmetric (T (xs.length - 1)) →
      getMeanEB T (finVec xs) (.fin c) (.fin b) (.fin l) (.fin u) .t counts = .ok (.fin (avg xs),
        .fin (max b (min ((T (xs.length - 1)).ppf ((1 + c) / 2) * stdErr xs)
          (max (u - avg xs) (avg xs - l)))))) ∧
    getMeanEB T (finVec xs) (.fin c) (.fin b) (.fin l) (.fin u) .bernstein counts = .ok (.fin (avg xs),
        .fin (max b (min (bernWidth xs (u - l) (Real.log (3 / (1 - c))))
          (max (u - avg xs) (avg xs - l))))) ∧
    (ValidDraws xs.length 1000 counts →
      ∃ e0 : ℝ, errorBar (finVec (resampledMeans xs counts)) (.fin (avg xs)) (.fin c) = .ok (.fin e0) ∧
      getMeanEB T (finVec xs) (.fin c) (.fin b) (.fin l) (.fin u) .boot counts = .ok (.fin (avg xs),
        .fin (max b (min e0 (max (u - avg xs) (avg xs - l)))))) := by
  have hne : xs ≠ [] := by rintro rfl; simp at h2
  have hv : ValidLimits (.fin l) (.fin u : Flt ℝ) := by simp [ValidLimits, hlu]
  have hwi : Within (.fin l) (.fin u) xs := fun x hx =>
    ⟨by simpa using (hw x hx).1, by simpa using (hw x hx).2⟩
  obtain ⟨ha1, ha2⟩ := avg_mem hne hwi
  have hb3 : Flt.fin (2 * b) ≤ (Flt.fin u).sub (.fin l) := by simpa using hb2
  have ht := (trivial_facts hv ha1 ha2 (not_lt.2 hb3)).2
  simp only [Flt.sub_fin, Flt.fmax_fin, Flt.fin_le_fin] at ht
  have fin : ∀ e0 : ℝ, clipEB (.fin (avg xs)) (.fin e0) (.fin l) (.fin u) (.fin b) =
      .ok (.fin (max b (min e0 (max (u - avg xs) (avg xs - l))))) := by
    intro e0
    rw [clipEB_value _ hv hb ha1 ha2 hb3]
    simp only [Flt.sub_fin, Flt.fmax_fin, Flt.clip_fin]
    rw [clip_le_eq ht]
  have hin := (within_finVec hv.2.1 xs).2 hwi
  refine ⟨fun hT => ?_, ?_, fun hd => ?_⟩
  · obtain ⟨e, he, -, rfl, -⟩ := C45_t_EB T h2 hT h0 h1
    unfold getMeanEB
    rw [pyAssert_bind, if_pos hin]
    dsimp only
    rw [he, ok_bind, mean_finVec hne, clipChk_id (by simp) hv.1 hv.2.1 ha1 ha2, ok_bind, fin, ok_bind]
    rfl
  · have he := (C47_bernstein_EB h2 hlu hw h0 h1).1
    unfold getMeanEB
    rw [pyAssert_bind, if_pos hin]
    dsimp only
    rw [he, ok_bind, mean_finVec hne, clipChk_id (by simp) hv.1 hv.2.1 ha1 ha2, ok_bind, fin, ok_bind]
    rfl
  · obtain ⟨e, p, l', u', -, -, -, -, heb, -, -, he, -⟩ := C48_shared h2 hd h0 h1
    refine ⟨e, heb, ?_⟩
    unfold getMeanEB
    rw [pyAssert_bind, if_pos hin]
    dsimp only [defaultNBoot]
    rw [he, ok_bind, mean_finVec hne, clipChk_id (by simp) hv.1 hv.2.1 ha1 ha2, ok_bind, fin, ok_bind]
    rfl

/-- C49: `get_test` runs the test of the named method. -/
theorem C49_dispatch (T : Nat → RefDist) (x : List (Flt ℝ)) (lower upper : Flt ℝ)
    (counts : List (List Nat)) :
    getTest T x lower upper .t counts = tTest T x ∧
    getTest T x lower upper .bernstein counts = bernsteinTest x lower upper ∧
    getTest T x lower upper .boot counts = bootTest x 1000 counts := ⟨rfl, rfl, rfl⟩

/-- C50: an unknown method name is rejected, and so is an empty sample. -/
theorem C50_reject (T : Nat → RefDist) (x : List (Flt ℝ)) (conf minEB lower upper : Flt ℝ)
    (counts : List (List Nat)) :
    getMeanEB T x conf minEB lower upper .other counts = .error .assertion ∧
    getTest T x lower upper .other counts = .error .assertion ∧
    ∀ method r, getMeanEB T [] conf minEB lower upper method counts ≠ .ok r := by
  refine ⟨?_, rfl, ?_⟩
  · unfold getMeanEB
    rw [pyAssert_bind]
    split_ifs <;> rfl
  · intro method r h
    unfold getMeanEB at h
    rw [pyAssert_bind] at h
    split_ifs at h
    rw [bind_ok_iff] at h
    obtain ⟨EB, -, h⟩ := h
    rw [bind_ok_iff] at h
    obtain ⟨mu, hmu, -⟩ := h
    have hmean : Flt.mean ([] : List (Flt ℝ)) = .nan := by
      simp [Flt.mean, Flt.sum, Flt.div, Flt.signInf]
    rw [hmean] at hmu
    unfold Util.clipChk at hmu
    rw [pyAssert_bind, if_neg] at hmu
    · cases hmu
    · rw [Bool.not_eq_true]
      cases lower <;> cases upper <;> rfl

/-- Five zero-one losses: the hypotheses of C50 hold with limits (0,1). -/
example : ∃ e : Flt ℝ, getMeanEB studentT (finVec [0, 1, 1, 0, 1]) (.fin (95/100)) (.fin 0) (.fin 0)
    (.fin 1) .t [] = .ok (.fin (3/5), e) ∧ .fin 0 ≤ e ∧ e ≤ .fin (3/5) := by
  obtain ⟨e, h1, -, -, -, h2, h3⟩ := C50_mean_and_EB studentT (xs := [0, 1, 1, 0, 1]) (by simp)
    (lower := .fin 0) (upper := .fin 1) (by simp [ValidLimits]) (by simp [Within]) (c := 95/100)
    (by norm_num) (by norm_num) .t (by simp) [] (fun _ => studentT_isSymmetric (by simp)) (by simp)
    (b := 0) le_rfl (by simp)
  have ha : avg [0, 1, 1, 0, 1] = 3 / 5 := by unfold avg; norm_num
  rw [ha] at h1 h3
  refine ⟨e, h1, h2, (h3 0 1 rfl rfl).trans ?_⟩
  rw [Flt.fin_le_fin]; norm_num

end Mlp.Props
