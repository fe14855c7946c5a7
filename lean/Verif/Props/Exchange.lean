import Verif.Spec.Exchange
import Verif.Props.TableDouble
import Verif.Props.TableCoverage
import Verif.Props.RoundedCoverageDouble

/-!
# C145: exchanging the method and the reference

Comparing A with the reference B gives the same error bar and p-value as comparing B with the reference A, to the last bit.
-/

namespace Mlp.Props
set_option linter.unusedSectionVars false
open Mlp Mlp.Lemmas Mlp.Paper Mlp.PaperR Mlp.PerfR Mlp.BootR Mlp.Boot Mlp.Spec Mlp.Round

section
variable {K : Type} [Field K] [LinearOrder K] [IsStrictOrderedRing K] [FloorRing K]

theorem neg_isNaN (v : Flt K) : v.neg.isNaN = v.isNaN := by cases v <;> rfl
theorem neg_isFinite (v : Flt K) : v.neg.isFinite = v.isFinite := by cases v <;> rfl

theorem neg_le_flip (a b : Flt K) : a.neg.le b.neg = b.le a := by
  rw [Bool.eq_iff_iff, Flt.le_iff, Flt.le_iff]
  cases a <;> cases b <;> simp [Flt.neg]

theorem neg_lt_flip (a b : Flt K) : a.neg.lt b.neg = b.lt a := by
  rw [Bool.eq_iff_iff, Flt.lt_iff, Flt.lt_iff]
  cases a <;> cases b <;> simp [Flt.neg, ← not_le]

theorem neg_eq_neg (a b : Flt K) : a.neg.eq b.neg = a.eq b := by
  rw [Bool.eq_iff_iff, Flt.eq_iff, Flt.eq_iff]
  cases a <;> cases b <;> simp [Flt.neg]

theorem sub_neg_neg (a b : Flt K) : a.neg.sub b.neg = b.sub a := by
  cases a <;> cases b <;> simp [Flt.neg, Flt.sub, Flt.add]
  ring

theorem sub_flip (a b : Flt K) : a.sub b = (b.sub a).neg := by
  cases a <;> cases b <;> simp [Flt.neg, Flt.sub, Flt.add]

theorem fmax_comm (a b : Flt K) : a.fmax b = b.fmax a := by
  unfold Flt.fmax
  cases a <;> cases b <;> simp [Flt.isNaN, max_comm]

theorem rF_neg {rnd : K → K} (h : ∀ x, rnd (-x) = -rnd x) (a : Flt K) : rF rnd a.neg = (rF rnd a).neg := by
  cases a <;> simp [Flt.neg, rF, h]

theorem any_nan_neg (x : List (Flt K)) : ((x.map Flt.neg).any fun v => v.isNaN) = x.any fun v => v.isNaN := by
  rw [List.any_map]
  congr 1
  funext v
  exact neg_isNaN v

theorem all_finite_neg (x : List (Flt K)) : ((x.map Flt.neg).all fun v => v.isFinite) = x.all fun v => v.isFinite := by
  rw [List.all_map]
  congr 1
  funext v
  exact neg_isFinite v

theorem uninformative_neg (x : List (Flt K)) : uninformative (x.map Flt.neg) = uninformative x := by
  unfold uninformative
  rw [all_finite_neg, List.length_map]

theorem finVals_neg (x : List (Flt K)) : finVals (x.map Flt.neg) = (finVals x).map fun v => -v := by
  induction x with
  | nil => rfl
  | cons a l ih => cases a <;> simp [finVals, Flt.neg] at ih ⊢ <;> exact ih

theorem within_neg (r : Flt K) (x : List (Flt K)) : within r.neg r (x.map Flt.neg) = within r.neg r x := by
  unfold within
  rw [List.all_map, List.all_map, Bool.and_comm]
  congr 2
  · funext v
    change v.neg.le r = r.neg.le v
    rw [← neg_le_flip, Flt.neg_neg]
  · funext v
    exact neg_le_flip _ _

theorem signInf_neg (x : K) : Flt.signInf (-x) = (Flt.signInf x).neg := by
  unfold Flt.signInf
  rcases lt_trichotomy x 0 with h | h | h
  · rw [if_pos (by linarith), if_neg (by linarith), if_pos h]; rfl
  · subst h; simp [Flt.neg]
  · rw [if_neg (by linarith), if_pos (by linarith), if_pos h]; rfl

theorem div_fin_neg (x y : K) : (Flt.fin (-x)).div (.fin y) = ((Flt.fin x).div (.fin y)).neg := by
  unfold Flt.div
  dsimp only
  split_ifs with h
  · exact signInf_neg x
  · simp [Flt.neg, neg_div]

theorem fabs_neg (a : Flt K) : fabs a.neg = fabs a := by
  cases a <;> simp [fabs, Flt.neg]

theorem flt_sum_neg (x : List (Flt K)) : Flt.sum (x.map Flt.neg) = (Flt.sum x).neg := by
  have h : ∀ (l : List (Flt K)) (a : Flt K), List.foldl Flt.add a.neg (l.map Flt.neg) = (List.foldl Flt.add a l).neg := by
    intro l
    induction l with
    | nil => intro a; rfl
    | cons b l ih =>
      intro a
      rw [List.map_cons, List.foldl_cons, List.foldl_cons, ← ih]
      congr 1
      cases a <;> cases b <;> simp [Flt.neg, Flt.add]
      ring
  have := h x (.fin 0)
  simpa [Flt.sum, Flt.neg] using this

theorem flt_mean_neg (x : List (Flt K)) : Flt.mean (x.map Flt.neg) = (Flt.mean x).neg := by
  unfold Flt.mean
  rw [flt_sum_neg, List.length_map]
  cases Flt.sum x with
  | fin v => exact div_fin_neg v _
  | pinf => change (if _ then _ else _) = Flt.neg (if _ then _ else _); split_ifs <;> rfl
  | ninf => change (if _ then _ else _) = Flt.neg (if _ then _ else _); split_ifs <;> rfl
  | nan => rfl

variable {L : Lib K} (hL : OddLib L)
include hL

theorem meanR_neg (xs : List K) : meanR L (xs.map fun v => -v) = -meanR L xs := by
  unfold meanR
  rw [hL.sum, List.length_map, neg_div, hL.rnd]

theorem meanFR_neg (x : List (Flt K)) : meanFR L (x.map Flt.neg) = (meanFR L x).neg := by
  unfold meanFR
  rw [all_finite_neg, flt_mean_neg, finVals_neg, hL.sum, List.length_map]
  split_ifs
  · rw [div_fin_neg, rF_neg hL.rnd]
  · rfl

theorem varR_neg (d : K) (xs : List K) : varR L d (xs.map fun v => -v) = varR L d xs := by
  unfold varR
  rw [meanR_neg hL, List.length_map, List.map_map]
  congr 4
  funext v
  simp only [Function.comp]
  rw [show -v - -meanR L xs = -(v - meanR L xs) by ring, hL.rnd, neg_mul_neg]

theorem tEBR_neg (x : List (Flt K)) (c : Flt K) : tEBR L (x.map Flt.neg) c = tEBR L x c := by
  unfold tEBR
  simp only [any_nan_neg, uninformative_neg, finVals_neg, List.length_map, varR_neg hL]

theorem tTestR_neg (x : List (Flt K)) : tTestR L (x.map Flt.neg) = tTestR L x := by
  unfold tTestR
  simp only [any_nan_neg, uninformative_neg, finVals_neg, List.length_map, varR_neg hL, meanR_neg hL, sub_zero, hL.rnd, div_fin_neg,
    rF_neg hL.rnd, fabs_neg, neg_eq_zero]

theorem bernsteinEBR_neg (x : List (Flt K)) (r c : Flt K) :
    bernsteinEBR L (x.map Flt.neg) r.neg r c = bernsteinEBR L x r.neg r c := by
  unfold bernsteinEBR
  simp only [any_nan_neg, uninformative_neg, finVals_neg, List.length_map, varR_neg hL, within_neg]

theorem bernsteinTestR_neg (x : List (Flt K)) (r : Flt K) :
    bernsteinTestR L (x.map Flt.neg) r.neg r = bernsteinTestR L x r.neg r := by
  unfold bernsteinTestR
  simp only [any_nan_neg, uninformative_neg, finVals_neg, List.length_map, varR_neg hL, within_neg, meanR_neg hL, abs_neg]

omit hL in
theorem sort_neg {l : List (Flt K)} (h : ∀ v ∈ l, v ≠ .nan) :
    (l.map Flt.neg).insertionSort (· ≤ ·) = ((l.insertionSort (· ≤ ·)).map Flt.neg).reverse := by
  refine List.Perm.eq_of_pairwise (le := (· ≤ ·)) (fun a b _ _ => le_antisymm) (List.pairwise_insertionSort _ _) ?_ ?_
  · rw [List.pairwise_reverse, List.pairwise_map]
    refine (List.pairwise_insertionSort (· ≤ ·) l).imp_of_mem fun {a b} ha hb hab => ?_
    rw [(List.perm_insertionSort _ _).mem_iff] at ha hb
    exact (Flt.neg_le_neg (h _ hb) (h _ ha)).2 hab
  · exact (List.perm_insertionSort _ _).trans (((List.perm_insertionSort _ _).map _).symm.trans (List.reverse_perm _).symm)

omit hL in
theorem percentileR_neg {rnd : K → K} {l : List (Flt K)} {c : Flt K}
    (hm : ∀ v, c = .fin v → 0 < v → v < 1 → MirrorPositions rnd l.length v) :
    percentileR rnd (l.map Flt.neg) c = (percentileR rnd l c).map fun p => (p.2.neg, p.1.neg) := by
  unfold percentileR confidenceToPercentilesR
  rw [any_nan_neg]
  by_cases hn : (l.any fun v => v.isNaN) = true
  · simp [hn, pyAssert_bind, Except.map]
  · have hn' : ∀ v ∈ l, v ≠ .nan := by
      rintro v hv rfl
      exact hn (List.any_eq_true.2 ⟨_, hv, rfl⟩)
    simp only [Bool.not_eq_true] at hn
    simp only [hn, pyAssert_bind, Bool.not_false, if_true]
    rcases c with c | _ | _ | _
    · simp only [pyAssert_bind]
      by_cases hc : 0 < c ∧ c < 1
      · obtain ⟨k, hk, h1, h2⟩ := hm c rfl hc.1 hc.2
        simp only [hc, decide_true, Bool.and_self, if_true, pure_eq_ok, ok_bind, percentileLowerR, percentileHigherR, positionR, List.length_map, h1, h2,
          Int.toNat_natCast, sort_neg hn']
        have hlen : (l.insertionSort (· ≤ ·)).length = l.length := List.length_insertionSort _ _
        have g1 : (((l.insertionSort (· ≤ ·)).map Flt.neg).reverse)[k]? = some ((l.insertionSort (· ≤ ·))[l.length - 1 - k]'(by omega)).neg := by
          rw [List.getElem?_eq_getElem (by simpa using hk)]
          simp
        have g2 : (((l.insertionSort (· ≤ ·)).map Flt.neg).reverse)[l.length - 1 - k]? = some ((l.insertionSort (· ≤ ·))[k]'(by omega)).neg := by
          rw [List.getElem?_eq_getElem (by simp; omega)]
          simp only [List.getElem_reverse, List.getElem_map, List.length_map, hlen]
          congr 3
          omega
        rw [g1, g2, List.getElem?_eq_getElem (by omega), List.getElem?_eq_getElem (by omega)]
        rfl
      · have : (decide (0 < c) && decide (c < 1)) = false := by
          rw [← Bool.not_eq_true]
          simpa using hc
        simp [this, Except.map, error_bind]
    all_goals rfl

omit hL in
theorem errorBarR_neg {rnd : K → K} {l : List (Flt K)} {c : Flt K} (o : Flt K)
    (hm : ∀ v, c = .fin v → 0 < v → v < 1 → MirrorPositions rnd l.length v) :
    errorBarR rnd (l.map Flt.neg) o.neg c = errorBarR rnd l o c := by
  unfold errorBarR
  rw [percentileR_neg hm]
  cases h : percentileR rnd l c with
  | error e => rfl
  | ok p =>
    simp only [Except.map, ok_bind, sub_neg_neg, neg_isFinite]
    rw [fmax_comm]

omit hL in
theorem zipWith_le_neg (l : List (Flt K)) (n : Nat) :
    List.zipWith Flt.le (l.map Flt.neg) (List.replicate n (.fin 0)) = List.zipWith Flt.le (List.replicate n (.fin 0)) l ∧
    List.zipWith Flt.le (List.replicate n (.fin 0)) (l.map Flt.neg) = List.zipWith Flt.le l (List.replicate n (.fin 0)) := by
  have h0 : (Flt.fin 0 : Flt K).neg = .fin 0 := by simp [Flt.neg]
  induction l generalizing n with
  | nil => cases n <;> simp
  | cons a l ih =>
    cases n with
    | zero => simp
    | succ n =>
      obtain ⟨i1, i2⟩ := ih n
      simp only [List.map_cons, List.replicate_succ, List.zipWith_cons_cons, i1, i2]
      have e1 : a.neg.le (.fin 0) = (Flt.fin 0).le a := by
        have := neg_le_flip a (.fin 0)
        rwa [h0] at this
      have e2 : (Flt.fin 0).le a.neg = a.le (.fin 0) := by
        have := neg_le_flip (.fin 0) a
        rwa [h0] at this
      rw [e1, e2]
      exact ⟨rfl, rfl⟩

omit hL in
theorem minimum_comm (a b : Flt K) : a.minimum b = b.minimum a := by
  unfold Flt.minimum
  rw [Bool.or_comm, min_comm]

omit hL in
theorem significanceR_neg (rnd : K → K) (l : List (Flt K)) :
    significanceR rnd (l.map Flt.neg) (.scalar (.fin 0)) = significanceR rnd l (.scalar (.fin 0)) := by
  unfold significanceR Ref.broadcast
  simp only [any_nan_neg, List.length_map, (zipWith_le_neg l _).1, (zipWith_le_neg l _).2]
  rw [minimum_comm (meanBoolR rnd (List.zipWith Flt.le (List.replicate _ _) l))]

theorem bootEBTestR_neg {n : Nat} {c : Flt K} {a : Bool} (hm : a = true → ∀ v, c = .fin v → 0 < v → v < 1 → MirrorPositions L.rnd n v)
    (x : List (Flt K)) (counts : List (List Nat)) (b : Bool) :
    bootEBTestR L (x.map Flt.neg) c n counts a b false = bootEBTestR L x c n counts a b false := by
  unfold bootEBTestR
  simp only [any_nan_neg, uninformative_neg, finVals_neg, List.length_map, meanR_neg hL]
  congr 1
  funext _
  by_cases hu : uninformative x = true
  · rw [if_pos hu, if_pos hu]
  · rw [if_neg hu, if_neg hu]
    cases hw : Boot.bootWeights (K := K) (finVals x).length n 0 counts with
    | error e => rfl
    | ok w =>
      have hlen : w.length = n := by
        unfold Boot.bootWeights at hw
        simp only [pyAssert_bind] at hw
        split_ifs at hw with h1 h2 h3
        rw [Bool.and_eq_true] at h3
        cases hw
        exact_mod_cast of_decide_eq_true h3.1
      have hmu : (w.map fun (r : List K) => Flt.fin (meanR L (List.zipWith (fun (a b : K) => L.rnd (a * b))
          ((finVals x).map fun v => -v) r))) = (w.map fun (r : List K) => Flt.fin (meanR L (List.zipWith (fun (a b : K) => L.rnd (a * b))
          (finVals x) r))).map Flt.neg := by
        rw [List.map_map]
        refine List.map_congr_left fun r _ => ?_
        simp only [Function.comp, Flt.neg]
        rw [← meanR_neg hL, List.zipWith_map_left, List.map_zipWith]
        simp only [neg_mul, hL.rnd]
      simp only [ok_bind, hmu, significanceR_neg, Bool.false_eq_true, if_false]
      cases a with
      | false => rfl
      | true =>
      have he := errorBarR_neg (rnd := L.rnd) (c := c) (l := w.map fun (r : List K) => Flt.fin (meanR L (List.zipWith (fun (a b : K) => L.rnd (a * b))
          (finVals x) r))) (.fin (meanR L (finVals x))) (by rw [List.length_map, hlen]; exact hm rfl)
      simp only [Flt.neg_fin] at he
      rw [he]

omit hL in
theorem clip_neg (a r : Flt K) (h : r.neg.le r = true) : a.neg.clip r.neg r = (a.clip r.neg r).neg := by
  unfold Flt.clip
  have h1 : a.neg.lt r.neg = r.lt a := neg_lt_flip a r
  have h2 : r.lt a.neg = a.lt r.neg := by
    have := neg_lt_flip r.neg a
    rwa [Flt.neg_neg] at this
  rw [h1, h2]
  by_cases h3 : r.lt a = true
  · have h4 : ¬ (a.lt r.neg = true) := by
      intro h5
      rw [Flt.lt_iff] at h3 h5
      rw [Flt.le_iff] at h
      exact absurd (h3.2.trans h5.2) (not_lt.2 h.2)
    rw [if_pos h3, if_neg h4, if_pos h3]
  · rw [if_neg h3, if_neg h3]
    split_ifs
    · rw [Flt.neg_neg]
    · rfl

theorem isclose_neg (a b : Flt K) : iscloseR L a.neg b.neg = iscloseR L a b := by
  have h := neg_eq_neg a b
  cases a <;> cases b <;> first | exact h | skip
  rename_i x y
  simp only [iscloseR, Flt.neg, allcloseR, abs_neg]
  rw [show -x - -y = -(x - y) by ring, hL.rnd, abs_neg]

theorem clipChkR_neg (a r : Flt K) (h : r.neg.le r = true) :
    clipChkR L a.neg r.neg r = (clipChkR L a r.neg r).map Flt.neg := by
  unfold clipChkR
  have h2 : iscloseR L a.neg r = iscloseR L a r.neg := by
    have := isclose_neg hL a r.neg
    rwa [Flt.neg_neg] at this
  simp only [clip_neg a r h, neg_eq_neg, isclose_neg hL a r, h2, pyAssert_bind]
  rw [Bool.or_assoc, Bool.or_comm (iscloseR L a r), ← Bool.or_assoc]
  split_ifs <;> rfl

omit hL in
theorem clipEBR_neg (mu EB r m : Flt K) : clipEBR L mu.neg EB r.neg r m = clipEBR L mu EB r.neg r m := by
  unfold clipEBR
  have h1 : mu.neg.lt r.neg = r.lt mu := neg_lt_flip mu r
  have h2 : r.lt mu.neg = mu.lt r.neg := by
    have := neg_lt_flip r.neg mu
    rwa [Flt.neg_neg] at this
  have h3 : r.sub mu.neg = mu.sub r.neg := by
    have := sub_neg_neg r.neg mu
    rwa [Flt.neg_neg] at this
  have h4 : mu.neg.sub r.neg = r.sub mu := sub_neg_neg mu r
  rw [h1, h2, h3, h4, Bool.or_comm, fmax_comm]

theorem clipChkR_nan (lo hi : Flt K) : clipChkR L .nan lo hi = .error .assertion := by
  cases lo <;> cases hi <;> rfl

theorem meanFR_nil : meanFR L ([] : List (Flt K)) = .nan := by
  have h0 : L.sum [] = 0 := by
    have := hL.sum []
    simp only [List.map_nil] at this
    linarith
  change rF L.rnd ((Flt.fin (L.sum [])).div (.fin ((0 : Nat) : K))) = .nan
  rw [h0]
  simp [Flt.div, Flt.signInf, rF]

theorem getMeanEBTestR_neg {c : Flt K} {m : EBMethod} (hm : m = .boot → ∀ v, c = .fin v → 0 < v → v < 1 → MirrorPositions L.rnd 1000 v)
    (x : List (Flt K)) (r b : Flt K) (counts : List (List Nat)) :
    getMeanEBTestR L (x.map Flt.neg) c b r.neg r m counts =
      (getMeanEBTestR L x c b r.neg r m counts).map fun t => (t.1.neg, t.2.1, t.2.2) := by
  unfold getMeanEBTestR
  rw [within_neg]
  by_cases hw : within r.neg r x = true
  · simp only [hw, pyAssert_bind, if_true]
    have hrest : ∀ q : Flt K × Flt K, (do
        let mu ← clipChkR L (meanFR L (x.map Flt.neg)) r.neg r
        let EB ← clipEBR L mu q.1 r.neg r b
        return (mu, EB, q.2) : Py (Flt K × Flt K × Flt K)) = (do
        let mu ← clipChkR L (meanFR L x) r.neg r
        let EB ← clipEBR L mu q.1 r.neg r b
        return (mu, EB, q.2) : Py (Flt K × Flt K × Flt K)).map fun t => (t.1.neg, t.2.1, t.2.2) := by
      intro q
      by_cases hx : x = []
      · subst hx
        rw [List.map_nil, meanFR_nil hL, clipChkR_nan hL]
        rfl
      · have hr : r.neg.le r = true := by
          obtain ⟨v, hv⟩ := List.exists_mem_of_ne_nil x hx
          unfold within at hw
          rw [Bool.and_eq_true, List.all_eq_true, List.all_eq_true] at hw
          have h1 := hw.1 v hv
          have h2 := hw.2 v hv
          rw [Flt.le_iff] at h1 h2 ⊢
          exact ⟨h2.1, h1.2.trans h2.2⟩
        rw [meanFR_neg hL, clipChkR_neg hL _ _ hr]
        cases h : clipChkR L (meanFR L x) r.neg r with
        | error e => rfl
        | ok mu =>
          simp only [Except.map, ok_bind, clipEBR_neg]
          cases clipEBR L mu q.1 r.neg r b <;> rfl
    have key : ∀ q : Py (Flt K × Flt K), (do
        let r' ← q
        let mu ← clipChkR L (meanFR L (x.map Flt.neg)) r.neg r
        let EB ← clipEBR L mu r'.1 r.neg r b
        return (mu, EB, r'.2) : Py (Flt K × Flt K × Flt K)) = (do
        let r' ← q
        let mu ← clipChkR L (meanFR L x) r.neg r
        let EB ← clipEBR L mu r'.1 r.neg r b
        return (mu, EB, r'.2) : Py (Flt K × Flt K × Flt K)).map fun t => (t.1.neg, t.2.1, t.2.2) := by
      rintro (e | q)
      · rfl
      · exact hrest q
    cases m
    · simp only [tEBR_neg hL, tTestR_neg hL]
      exact key _
    · simp only [bernsteinEBR_neg hL, bernsteinTestR_neg hL]
      exact key _
    · simp only [show defaultNBoot = 1000 from rfl, bootEBTestR_neg hL (fun _ => hm rfl)]
      exact key _
    · exact key _
  · simp only [hw, pyAssert_bind]
    rfl

theorem getTestR_neg (x : List (Flt K)) (r : Flt K) (m : EBMethod) (counts : List (List Nat)) :
    getTestR L (x.map Flt.neg) r.neg r m counts = getTestR L x r.neg r m counts := by
  cases m
  · exact tTestR_neg hL x
  · exact bernsteinTestR_neg hL x r
  · have h : ∀ c n, bootEBTestR L (x.map Flt.neg) c n counts false true false = bootEBTestR L x c n counts false true false :=
      fun c n => bootEBTestR_neg hL (fun h => absurd h (by decide)) x counts true
    simp only [getTestR, bootTestR, h]
  · rfl

omit hL in
theorem deltas_swap {rnd : K → K} (h : ∀ x, rnd (-x) = -rnd x) (x y : List (Flt K)) :
    List.zipWith (fun a b => rF rnd (Flt.sub a b)) y x = (List.zipWith (fun a b => rF rnd (Flt.sub a b)) x y).map Flt.neg := by
  rw [List.map_zipWith, List.zipWith_comm]
  congr 1
  funext a b
  rw [sub_flip, rF_neg h]

/-- **C145, a comparison with its own error bar.**  For losses that pass the checks, the error bar and the p-value of a method compared with the
reference are those of the reference compared with the method. -/
theorem C145_pairwise {c : Flt K} {m : EBMethod} (hm : m = .boot → ∀ v, c = .fin v → 0 < v → v < 1 → MirrorPositions L.rnd 1000 v)
    {x y : List (Flt K)} {lower upper : Flt K} (hx : (x.any fun v => v.isNaN) = false) (hy : (y.any fun v => v.isNaN) = false)
    (hxw : within lower upper x = true) (hyw : within lower upper y = true) {d d' : Draws} (hd : d.eb = d'.eb) :
    (cellOfR L y x false true c m lower upper d').map (fun t => t.2) = (cellOfR L x y false true c m lower upper d).map fun t => t.2 := by
  unfold cellOfR
  simp only [hx, hy, hxw, hyw, pyAssert_bind, Bool.not_false, if_true, Bool.false_eq_true, if_false]
  rw [deltas_swap hL.rnd x y, getMeanEBTestR_neg hL hm, hd]
  cases getMeanEBTestR L (List.zipWith (fun a b => rF L.rnd (Flt.sub a b)) x y) c (.fin 0) (rF L.rnd (upper.sub lower)).neg
    (rF L.rnd (upper.sub lower)) m d'.eb <;> rfl

end

variable {L : Lib ℝ} {tbl : LossTable} {a b metric : Str} {c : Flt ℝ} {m : EBMethod} {limits : List (Str × (Flt ℝ × Flt ℝ))}
  {draws draws' : Str → Str → Draws} {outA outB : List (List (Flt ℝ × Flt ℝ × Flt ℝ))} {x y : Flt ℝ × Flt ℝ × Flt ℝ}

/-- **C145, tables with `pairwise_CI`.**  The error bar and the p-value of `b` in the table with the reference `a` are those of `a` in the table with
the reference `b`, if the bootstrap draws the same weights. -/
theorem C145_table (hL : OddLib L) (hm : m = .boot → ∀ v, c = .fin v → 0 < v → v < 1 → MirrorPositions L.rnd 1000 v)
    (hA : lossSummaryTableR L tbl a true c m limits draws = .ok outA) (hB : lossSummaryTableR L tbl b true c m limits draws' = .ok outB)
    (hd : (draws metric b).eb = (draws' metric a).eb) (hx : SummaryCell tbl outA metric b x) (hy : SummaryCell tbl outB metric a y) :
    x.2 = y.2 := by
  obtain ⟨i, j, row, h1, h2, h3, h4⟩ := hx
  obtain ⟨i', j', row', h1', h2', h3', h4'⟩ := hy
  obtain ⟨-, -, -, h⟩ := summaryR_ok.1 hA
  obtain ⟨-, -, -, h'⟩ := summaryR_ok.1 hB
  obtain ⟨lo, hi, lr, k1, -, k2, n1, w1, h⟩ := forall₂_getElem? h h1 h3
  obtain ⟨lo', hi', lr', k1', -, k2', n2, w2, h'⟩ := forall₂_getElem? h' h1' h3'
  obtain ⟨loss, k3, h⟩ := forall₂_getElem? h h2 h4
  obtain ⟨loss', k3', h'⟩ := forall₂_getElem? h' h2' h4'
  obtain rfl := hasLoss_unique k2' k3
  obtain rfl := hasLoss_unique k2 k3'
  obtain ⟨rfl, rfl⟩ := limitsOf_unique k1 k1'
  by_cases hab : a = b
  · subst hab
    unfold cellOfR at h h'
    simp only [assert_bind_ok, decide_true, if_true] at h h'
    rw [← (Except.ok.inj h.2.2), ← (Except.ok.inj h'.2.2)]
  · have e1 : decide (b = a) = false := decide_eq_false fun h => hab h.symm
    have e2 : decide (a = b) = false := decide_eq_false hab
    rw [e1] at h
    rw [e2] at h'
    have key := C145_pairwise hL hm (x := lr') (y := lr) (by simpa using (noNaN_any _).2 n2) (by simpa using (noNaN_any _).2 n1) w2 w1 hd
    rw [h, h'] at key
    exact (Except.ok.inj key).symm

/-- **C145, tables without `pairwise_CI`.**  The p-values agree for every method of computing them. -/
theorem C145_p_value (hL : OddLib L) (hA : lossSummaryTableR L tbl a false c m limits draws = .ok outA)
    (hB : lossSummaryTableR L tbl b false c m limits draws' = .ok outB) (hd : (draws metric b).test = (draws' metric a).test)
    (hx : SummaryCell tbl outA metric b x) (hy : SummaryCell tbl outB metric a y) : x.2.2 = y.2.2 := by
  obtain ⟨i, j, row, h1, h2, h3, h4⟩ := hx
  obtain ⟨i', j', row', h1', h2', h3', h4'⟩ := hy
  obtain ⟨-, -, -, h⟩ := summaryR_ok.1 hA
  obtain ⟨-, -, -, h'⟩ := summaryR_ok.1 hB
  obtain ⟨lo, hi, lr, k1, -, k2, -, -, h⟩ := forall₂_getElem? h h1 h3
  obtain ⟨lo', hi', lr', k1', -, k2', -, -, h'⟩ := forall₂_getElem? h' h1' h3'
  obtain ⟨loss, k3, h⟩ := forall₂_getElem? h h2 h4
  obtain ⟨loss', k3', h'⟩ := forall₂_getElem? h' h2' h4'
  obtain rfl := hasLoss_unique k2' k3
  obtain rfl := hasLoss_unique k2 k3'
  obtain ⟨rfl, rfl⟩ := limitsOf_unique k1 k1'
  unfold cellOfR at h h'
  simp only [assert_bind_ok, Bool.false_eq_true, if_false] at h h'
  obtain ⟨-, -, h⟩ := h
  obtain ⟨-, -, h'⟩ := h'
  obtain ⟨q, -, h⟩ := (bind_ok_iff _ _ _).1 h
  obtain ⟨q', -, h'⟩ := (bind_ok_iff _ _ _).1 h'
  rw [assert_bind_ok] at h h'
  obtain ⟨-, h⟩ := h
  obtain ⟨-, h'⟩ := h'
  obtain ⟨p, hp, h⟩ := (bind_ok_iff _ _ _).1 h
  obtain ⟨p', hp', h'⟩ := (bind_ok_iff _ _ _).1 h'
  rw [← (Except.ok.inj h), ← (Except.ok.inj h')]
  by_cases hab : a = b
  · subst hab
    simp only [decide_true, if_true] at hp hp'
    exact (Except.ok.inj hp).symm.trans (Except.ok.inj hp')
  · have e1 : decide (b = a) = false := decide_eq_false fun h => hab h.symm
    have e2 : decide (a = b) = false := decide_eq_false hab
    simp only [e1, e2, Bool.false_eq_true, if_false] at hp hp'
    rw [deltas_swap hL.rnd lr' lr, getTestR_neg hL, ← hd, hp] at hp'
    exact Except.ok.inj hp'

theorem exactLib_odd (T : Nat → RefDist) : OddLib (exactLib T) where
  rnd x := rfl
  sum l := (List.sum_neg l).symm

/-- Without rounding the positions of the percentiles are always mirror images. -/
theorem mirror_exact {n : Nat} (hn : 1 ≤ n) {v : ℝ} (h0 : 0 < v) (h1 : v < 1) : MirrorPositions id n v := by
  have hn' : (1 : ℝ) ≤ n := by exact_mod_cast hn
  set t : ℝ := (1 - v) / 2 * ((n : ℝ) - 1) with ht
  have t0 : 0 ≤ t := mul_nonneg (by linarith) (by linarith)
  have t1 : t < n := by nlinarith
  have hk : (⌊t⌋.toNat : Int) = ⌊t⌋ := Int.toNat_of_nonneg (Int.floor_nonneg.2 t0)
  have hlt : ⌊t⌋ < (n : Int) := Int.floor_lt.2 (by exact_mod_cast t1)
  refine ⟨⌊t⌋.toNat, by omega, ?_, ?_⟩
  · rw [hk]
    congr 1
    simp only [id_eq]
    rw [ht]
    ring
  · have e : id (id (id (100 * id (1 - id ((1 / 2) * id (1 - v)))) / 100) * ((n : ℝ) - 1)) = ((n - 1 : Int) : ℝ) + -t := by
      simp only [id_eq]
      rw [ht]
      push_cast
      ring
    rw [e, Int.ceil_intCast_add, Int.ceil_neg]
    omega

/-- **C145 without rounding.**  In exact arithmetic error bars and p-values agree for all methods of computing them, the bootstrap included. -/
theorem C145_exact {T : Nat → RefDist} (hA : lossSummaryTable T tbl a true c m limits draws = .ok outA)
    (hB : lossSummaryTable T tbl b true c m limits draws' = .ok outB) (hd : (draws metric b).eb = (draws' metric a).eb)
    (hx : SummaryCell tbl outA metric b x) (hy : SummaryCell tbl outB metric a y) : x.2 = y.2 := by
  rw [← C110_table] at hA hB
  exact C145_table (exactLib_odd T) (fun _ v _ h0 h1 => mirror_exact (by norm_num) h0 h1) hA hB hd hx hy

theorem doubleLib_odd : OddLib doubleLib where
  rnd := binary64_floatRounding.neg
  sum l := by
    have h : ∀ (l : List ℝ) (a : ℝ), foldR binary64 (-a) (l.map fun x => -x) = -foldR binary64 a l := by
      intro l
      induction l with
      | nil => intro a; rfl
      | cons b l ih =>
        intro a
        rw [List.map_cons, foldR_cons, foldR_cons, ← neg_add, binary64_floatRounding.neg, ih]
    cases l with
    | nil => exact neg_zero.symm
    | cons a l => exact h l a

/-- **C145, the default confidence.**  In double precision, at the confidence 0.95 and with 1000 replicates, the positions are mirror images: the
25th smallest and the 25th largest replicate. -/
theorem C145_default : MirrorPositions (binary64 : ℝ → ℝ) 1000 (binary64 (95 / 100)) := by
  refine ⟨24, by norm_num, ?_, ?_⟩
  · have h : ⌊binary64 (binary64 (binary64 (100 * binary64 ((1 / 2) * binary64 (1 - binary64 (95 / 100 : ℚ)))) / 100) * (((1000 : Nat) : ℚ) - 1))⌋ = 24 := by
      decide +kernel
    rw [← Rat.floor_cast (α := ℝ)] at h
    rw [← show ((24 : Int)) = ((24 : Nat) : Int) from rfl, ← h]
    congr 1
    simp only [← binary64_cast, Rat.cast_mul, Rat.cast_sub, Rat.cast_div, Rat.cast_one, Rat.cast_ofNat, Rat.cast_natCast]
  · have h : ⌈binary64 (binary64 (binary64 (100 * binary64 (1 - binary64 ((1 / 2) * binary64 (1 - binary64 (95 / 100 : ℚ))))) / 100) * (((1000 : Nat) : ℚ) - 1))⌉ = 975 := by
      decide +kernel
    rw [← Rat.ceil_cast (α := ℝ)] at h
    rw [show ((1000 - 1 - 24 : Nat) : Int) = 975 from rfl, ← h]
    congr 1
    simp only [← binary64_cast, Rat.cast_mul, Rat.cast_sub, Rat.cast_div, Rat.cast_one, Rat.cast_ofNat, Rat.cast_natCast]

/-- **C145, a limit of the bootstrap.**  At the confidence `1 - 2/999`, rounded to a double, the positions are not mirror images: the interval runs from the
smallest replicate to the second largest one.  The error bar of the bootstrap may then change when method and reference are exchanged. -/
theorem C145_positions_can_differ : ¬ MirrorPositions (binary64 : ℚ → ℚ) 1000 (0x1fef997f5bfefa / 2 ^ 53) := by
  have h1 : ⌊binary64 (binary64 (binary64 (100 * binary64 ((1 / 2) * binary64 (1 - (0x1fef997f5bfefa / 2 ^ 53 : ℚ)))) / 100) * (((1000 : Nat) : ℚ) - 1))⌋ = 0 := by
    decide +kernel
  have h2 : ⌈binary64 (binary64 (binary64 (100 * binary64 (1 - binary64 ((1 / 2) * binary64 (1 - (0x1fef997f5bfefa / 2 ^ 53 : ℚ))))) / 100) * (((1000 : Nat) : ℚ) - 1))⌉ = 998 := by
    decide +kernel
  rintro ⟨k, hk, e1, e2⟩
  rw [h1] at e1
  rw [h2] at e2
  omega

/-! A table of two methods in double precision, with each of them as the reference: t intervals and bootstrap. -/

theorem exTable_both (m : EBMethod) (hm : m ≠ .other) (ref : Str) (hr : ref ∈ exTable.methods) :
    ∃ out, lossSummaryTableR doubleLib exTable ref true (.fin (binary64 (95 / 100))) m [("L".toList, (Flt.fin 0, Flt.fin 2))]
      (fun _ _ => ⟨List.replicate 1000 [0, 2], []⟩) = .ok out ∧ ∀ method ∈ exTable.methods, ∃ cell, SummaryCell exTable out "L".toList method cell := by
  have h53 : (exTable.nrows : ℝ) * (1 / 2 ^ 53) ≤ 1 / 1000000 := by norm_num [exTable]
  have e : binary64 (95 / 100 : ℝ) = ((binary64 (95 / 100 : ℚ) : ℚ) : ℝ) := by
    rw [← binary64_cast]
    norm_num
  have e0 : 0 < binary64 (95 / 100 : ℝ) := by
    rw [e]
    exact_mod_cast (show 0 < binary64 (95 / 100 : ℚ) by decide +kernel)
  have e1 : binary64 (95 / 100 : ℝ) < 1 := by
    rw [e]
    exact_mod_cast (show binary64 (95 / 100 : ℚ) < 1 by decide +kernel)
  obtain ⟨out, h, hf⟩ := C108_table doubleLib_good (u := 1 / 2 ^ 53) (by norm_num) binary64_relError binary64_halves (by norm_num)
    (tbl := exTable) (refMethod := ref) (c := binary64 (95 / 100)) e0 e1 (methodEB := m) hm
    (limits := [("L".toList, (Flt.fin 0, Flt.fin 2))]) (draws := fun _ _ => ⟨List.replicate 1000 [0, 2], []⟩)
    (by
      intro _ _ _
      refine ⟨by norm_num, List.length_replicate, fun row hrow => ?_⟩
      rw [List.eq_of_mem_replicate hrow]
      exact ⟨rfl, rfl⟩) hr
    (by simp [exTable]) h53 (by simp [exTable]) (fun metric hm => by
      obtain ⟨lo, hi, a, b, -, -, c⟩ := exTable_hyp metric hm
      exact ⟨lo, hi, a, b, c⟩)
  refine ⟨out, h, fun method hmeth => ?_⟩
  obtain ⟨j, hj, rfl⟩ := List.mem_iff_getElem.1 hmeth
  have hl := hf.length_eq
  have h0 : 0 < out.length := by rw [← hl]; simp [exTable]
  have h1 := (List.forall₂_iff_get.1 hf).2 0 (by simp [exTable]) h0
  have hj' : j < (out.get ⟨0, h0⟩).length := by rw [← h1.length_eq]; exact hj
  exact ⟨(out.get ⟨0, h0⟩)[j], 0, j, out.get ⟨0, h0⟩, rfl, List.getElem?_eq_getElem hj, List.getElem?_eq_getElem h0, List.getElem?_eq_getElem hj'⟩

example (m : EBMethod) (hm : m ≠ .other) : ∃ outA outB x y,
    lossSummaryTableR doubleLib exTable "A".toList true (.fin (binary64 (95 / 100))) m [("L".toList, (Flt.fin 0, Flt.fin 2))]
      (fun _ _ => ⟨List.replicate 1000 [0, 2], []⟩) = .ok outA ∧
    lossSummaryTableR doubleLib exTable "B".toList true (.fin (binary64 (95 / 100))) m [("L".toList, (Flt.fin 0, Flt.fin 2))]
      (fun _ _ => ⟨List.replicate 1000 [0, 2], []⟩) = .ok outB ∧
    SummaryCell exTable outA "L".toList "B".toList x ∧ SummaryCell exTable outB "L".toList "A".toList y ∧ x.2 = y.2 := by
  obtain ⟨outA, hA, cA⟩ := exTable_both m hm "A".toList (by simp [exTable])
  obtain ⟨outB, hB, cB⟩ := exTable_both m hm "B".toList (by simp [exTable])
  obtain ⟨x, hx⟩ := cA "B".toList (by simp [exTable])
  obtain ⟨y, hy⟩ := cB "A".toList (by simp [exTable])
  refine ⟨outA, outB, x, y, hA, hB, hx, hy, C145_table doubleLib_odd (fun _ v hv _ _ => ?_) hA hB rfl hx hy⟩
  obtain rfl := Flt.fin.inj hv
  exact C145_default

/-- C145 without `pairwise_CI`. -/
example : ∃ outA outB x y,
    lossSummaryTableR doubleLib exTable "A".toList false (.fin (19 / 20)) .t [("L".toList, (Flt.fin 0, Flt.fin 2))] (fun _ _ => ⟨[], []⟩) = .ok outA ∧
    lossSummaryTableR doubleLib exTable "B".toList false (.fin (19 / 20)) .t [("L".toList, (Flt.fin 0, Flt.fin 2))] (fun _ _ => ⟨[], []⟩) = .ok outB ∧
    SummaryCell exTable outA "L".toList "B".toList x ∧ SummaryCell exTable outB "L".toList "A".toList y ∧ x.2.2 = y.2.2 := by
  have h53 : (exTable.nrows : ℝ) * (1 / 2 ^ 53) ≤ 1 / 1000000 := by norm_num [exTable]
  have key : ∀ ref ∈ exTable.methods, ∃ out, lossSummaryTableR doubleLib exTable ref false (.fin (19 / 20)) .t
      [("L".toList, (Flt.fin 0, Flt.fin 2))] (fun _ _ => ⟨[], []⟩) = .ok out := by
    intro ref hr
    obtain ⟨out, h, -⟩ := C109_table_grid doubleLib_good (u := 1 / 2 ^ 53) (by norm_num) binary64_relError binary64_halves (by norm_num)
      (tbl := exTable) (refMethod := ref) (c := 19 / 20) (by norm_num) (by norm_num) (methodEB := .t) (by simp)
      (limits := [("L".toList, (Flt.fin 0, Flt.fin 2))]) (draws := fun _ _ => ⟨[], []⟩) (by intro h; cases h) hr
      (by simp [exTable]) h53 (by simp [exTable]) exTable_hyp
    exact ⟨out, h⟩
  obtain ⟨outA, hA⟩ := key "A".toList (by simp [exTable])
  obtain ⟨outB, hB⟩ := key "B".toList (by simp [exTable])
  obtain ⟨xa, xb, rfl⟩ := two_cells (L := doubleLib) (m := "L".toList) (a := "A".toList) (b := "B".toList) rfl rfl hA
  obtain ⟨ya, yb, rfl⟩ := two_cells (L := doubleLib) (m := "L".toList) (a := "A".toList) (b := "B".toList) rfl rfl hB
  have hx : SummaryCell exTable [[xa, xb]] "L".toList "B".toList xb := ⟨0, 1, _, rfl, rfl, rfl, rfl⟩
  have hy : SummaryCell exTable [[ya, yb]] "L".toList "A".toList ya := ⟨0, 0, _, rfl, rfl, rfl, rfl⟩
  exact ⟨_, _, xb, ya, hA, hB, hx, hy, C145_p_value doubleLib_odd hA hB rfl hx hy⟩

end Mlp.Props
