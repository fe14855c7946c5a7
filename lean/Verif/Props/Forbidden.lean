import Verif.Props.HardLoss
import Verif.Spec.Forbidden

/-! # Property C102: decisions under a loss matrix with infinite losses -/

namespace Mlp.Props
open Mlp.Util Mlp.Spec Mlp.Classif Mlp.Lemmas

/-! ## `np.argmin` of floats -/

theorem argminLoop_nan (b i : Nat) (l : List (Flt ℝ)) : argminLoop .nan b i l = b := by
  cases l <;> simp [argminLoop]

theorem argminLoop_flt (e : Nat → Flt ℝ) (len : Nat) : ∀ b i : Nat, b < i → (∀ j < i, e j ≠ .nan) →
    (∀ j < i, e b ≤ e j) → (∀ j < b, e b < e j) →
    ∃ a, argminLoop (e b) b i ((List.range' i len).map e) = a ∧ a < i + len ∧
      ((∃ j < i + len, e j = .nan) → e a = .nan ∧ ∀ j < a, e j ≠ .nan) ∧
      ((∀ j < i + len, e j ≠ .nan) → (∀ j < i + len, e a ≤ e j) ∧ ∀ j < a, e a < e j) := by
  induction len with
  | zero =>
    intro b i hb hn h1 h2
    refine ⟨b, rfl, by omega, ?_, fun _ => ⟨h1, h2⟩⟩
    rintro ⟨j, hj, hj'⟩
    exact absurd hj' (hn j hj)
  | succ len ih =>
    intro b i hb hn h1 h2
    have hi : i + (len + 1) = i + 1 + len := by omega
    rw [List.range'_succ, List.map_cons, hi]
    unfold argminLoop
    rw [if_neg (by simpa using hn b hb)]
    by_cases hnan : e i = .nan
    · have hle : (e b).le (e i) = false := by simp [hnan, Flt.le]
      rw [hle, if_neg (by simp), hnan, argminLoop_nan]
      refine ⟨i, rfl, by omega, fun _ => ⟨hnan, hn⟩, fun h => absurd hnan (h i (by omega))⟩
    · have hn' : ∀ j < i + 1, e j ≠ .nan := by
        intro j hj
        rcases Nat.lt_succ_iff_lt_or_eq.1 hj with hj | rfl
        · exact hn j hj
        · exact hnan
      by_cases hle : e b ≤ e i
      · rw [if_pos (Flt.le_iff.2 ⟨hnan, hle⟩)]
        refine ih b (i + 1) (by omega) hn' ?_ h2
        intro j hj
        rcases Nat.lt_succ_iff_lt_or_eq.1 hj with hj | rfl
        · exact h1 j hj
        · exact hle
      · rw [if_neg (fun h => hle (Flt.le_iff.1 h).2)]
        have hlt := not_le.1 hle
        refine ih i (i + 1) (by omega) hn' ?_ ?_
        · intro j hj
          rcases Nat.lt_succ_iff_lt_or_eq.1 hj with hj | rfl
          · exact hlt.le.trans (h1 j hj)
          · exact le_rfl
        · intro j hj
          exact lt_of_lt_of_le hlt (h1 j hj)

theorem argmin_flt (e : Nat → Flt ℝ) {m : Nat} (hm : 1 ≤ m) :
    ∃ a, argmin ((List.range m).map e) = .ok a ∧ a < m ∧
      ((∃ j < m, e j = .nan) → e a = .nan ∧ ∀ j < a, e j ≠ .nan) ∧
      ((∀ j < m, e j ≠ .nan) → (∀ j < m, e a ≤ e j) ∧ ∀ j < a, e a < e j) := by
  obtain ⟨n, rfl⟩ : ∃ n, m = n + 1 := ⟨m - 1, by omega⟩
  rw [List.range_eq_range', List.range'_succ, List.map_cons]
  by_cases h0 : e 0 = .nan
  · refine ⟨0, ?_, by omega, fun _ => ⟨h0, fun j hj => by omega⟩, fun h => absurd h0 (h 0 (by omega))⟩
    rw [h0, argmin, argminLoop_nan]
  · obtain ⟨a, h1, h2, h3, h4⟩ := argminLoop_flt e n 0 1 (by omega)
      (by intro j hj; interval_cases j; exact h0) (by intro j hj; interval_cases j; exact le_rfl) (by omega)
    rw [Nat.add_comm 1 n] at h2 h3 h4
    exact ⟨a, by rw [argmin, h1], h2, h3, h4⟩

/-! ## Sums with infinite terms -/

theorem foldl_add_nan (l : List (Flt ℝ)) : l.foldl Flt.add .nan = .nan := by
  induction l with
  | nil => rfl
  | cons v l ih =>
    have : Flt.add (.nan : Flt ℝ) v = .nan := by cases v <;> rfl
    rw [List.foldl_cons, this, ih]

theorem add_nan (v : Flt ℝ) : Flt.add v .nan = .nan := by cases v <;> rfl

theorem sum_nan (l : List (Flt ℝ)) (h : Flt.nan ∈ l) (a : Flt ℝ) : l.foldl Flt.add a = .nan := by
  induction l generalizing a with
  | nil => simp at h
  | cons v l ih =>
    rw [List.foldl_cons]
    by_cases hv : v = .nan
    · rw [hv, add_nan, foldl_add_nan]
    · exact ih ((List.mem_cons.1 h).resolve_left (fun h => hv h.symm)) _

theorem foldl_add_pinf (l : List (Flt ℝ)) (h : ∀ v ∈ l, v ≠ .nan ∧ v ≠ .ninf) : l.foldl Flt.add .pinf = .pinf := by
  induction l with
  | nil => rfl
  | cons v l ih =>
    have hv := h v List.mem_cons_self
    have : Flt.add (.pinf : Flt ℝ) v = .pinf := by
      cases v with
      | nan => exact absurd rfl hv.1
      | ninf => exact absurd rfl hv.2
      | _ => rfl
    rw [List.foldl_cons, this, ih (fun w hw => h w (List.mem_cons_of_mem _ hw))]

theorem sum_pinf (l : List (Flt ℝ)) (h : ∀ v ∈ l, v ≠ .nan ∧ v ≠ .ninf) (hp : Flt.pinf ∈ l) (x : ℝ) :
    l.foldl Flt.add (.fin x) = .pinf := by
  induction l generalizing x with
  | nil => simp at hp
  | cons v l ih =>
    have hv := h v List.mem_cons_self
    have ht : ∀ w ∈ l, w ≠ .nan ∧ w ≠ .ninf := fun w hw => h w (List.mem_cons_of_mem _ hw)
    rw [List.foldl_cons]
    cases v with
    | nan => exact absurd rfl hv.1
    | ninf => exact absurd rfl hv.2
    | pinf => exact foldl_add_pinf l ht
    | fin y => exact ih ht ((List.mem_cons.1 hp).resolve_left (by simp)) _

/-! ## Expected losses -/

theorem prob_nonneg' {v : Flt ℝ} : 0 ≤ prob v := by
  cases v <;> simp [prob, Real.exp_nonneg]

theorem pr_nonneg' (r : List (Flt ℝ)) (k : Nat) : 0 ≤ pr (probs r) k := by
  unfold pr probs
  rw [List.getD_eq_getElem?_getD, List.getElem?_map]
  cases r[k]? with
  | none => simp
  | some v => simpa using prob_nonneg'

theorem lossOf_spec {n m : Nat} {M : List (List (Flt ℝ))} (hM : IsLossMat n m M) {k a : Nat} (hk : k < n) (ha : a < m) :
    (lossOf M k a = .pinf ∨ ∃ x, lossOf M k a = .fin x) := by
  have hk' : k < M.length := by rw [hM.labels]; exact hk
  have hrow : M[k] ∈ M := List.getElem_mem hk'
  have ha' : a < M[k].length := by rw [hM.width _ hrow]; exact ha
  have he : lossOf M k a = M[k][a] := by
    unfold lossOf
    rw [getD_eq _ _ hk', getD_eq _ _ ha']
  have := hM.entries _ hrow _ (List.getElem_mem ha')
  rw [he]
  cases h : M[k][a] with
  | fin x => exact Or.inr ⟨x, rfl⟩
  | pinf => exact Or.inl rfl
  | ninf => exact absurd h this.2
  | nan => exact absurd h this.1

/-- The terms of the expected loss of an action. -/
noncomputable def lossTerms (q : List ℝ) (M : List (List (Flt ℝ))) (a : Nat) : List (Flt ℝ) :=
  (List.range q.length).map fun k => Flt.mul (.fin (pr q k)) (lossOf M k a)

theorem dotRow_flt {r : List (Flt ℝ)} {n m : Nat} {M : List (List (Flt ℝ))} (hr : LogProbs r) (hl : r.length = n)
    (hM : IsLossMat n m M) :
    dotRow (r.map fexp) ⟨m, M⟩ = (List.range m).map fun a => Flt.sum (lossTerms (probs r) M a) := by
  unfold dotRow
  refine List.map_congr_left fun a ha => ?_
  have ha' : a < m := List.mem_range.1 ha
  congr 1
  have e1 : r.map fexp = finVec (probs r) := by
    unfold finVec probs
    rw [List.map_map]
    exact List.map_congr_left fun v hv => fexp_prob (hr v hv)
  have hq : (probs r).length = n := by rw [probs_length, hl]
  rw [e1]
  apply List.ext_getElem
  · simp [finVec, colAt, lossTerms, hq, hM.labels]
  · intro k h1 h2
    have hk : k < (probs r).length := by
      rw [lossTerms, List.length_map, List.length_range] at h2; exact h2
    have hkM : k < M.length := by rw [hM.labels, ← hq]; exact hk
    have ha2 : a < M[k].length := by rw [hM.width _ (List.getElem_mem hkM)]; exact ha'
    have e2 : (lossTerms (probs r) M a)[k] = Flt.mul (.fin (pr (probs r) k)) (lossOf M k a) := by
      simp [lossTerms]
    rw [List.getElem_zipWith, e2]
    congr 1
    · rw [pr, getD_eq _ _ hk]
      simp [finVec]
    · have e3 : lossOf M k a = M[k][a] := by
        unfold lossOf
        rw [getD_eq _ _ hkM, getD_eq _ _ ha2]
      rw [e3]
      simp [colAt, ha2]

theorem terms_spec {r : List (Flt ℝ)} {n m : Nat} {M : List (List (Flt ℝ))} (hl : r.length = n)
    (hM : IsLossMat n m M) {a : Nat} (ha : a < m) :
    (ForbiddenAtZero (probs r) M a → Flt.sum (lossTerms (probs r) M a) = .nan) ∧
    (¬ ForbiddenAtZero (probs r) M a → Forbidden M a → Flt.sum (lossTerms (probs r) M a) = .pinf) ∧
    (¬ Forbidden M a → Flt.sum (lossTerms (probs r) M a) = .fin (finiteLoss (probs r) M a)) := by
  have hq : (probs r).length = n := by rw [probs_length, hl]
  refine ⟨?_, ?_, ?_⟩
  · rintro ⟨k, hk, h1, h2⟩
    apply sum_nan
    unfold lossTerms
    refine List.mem_map.2 ⟨k, List.mem_range.2 (by rw [hq, ← hM.labels]; exact hk), ?_⟩
    rw [h1, h2]
    simp [Flt.mul, Flt.signInf]
  · rintro h0 ⟨k, hk, h1⟩
    have hpos : ∀ j, j < n → lossOf M j a = .pinf → 0 < pr (probs r) j := by
      intro j hj hj'
      refine lt_of_le_of_ne (pr_nonneg' r j) fun h => h0 ⟨j, by rw [hM.labels]; exact hj, hj', h.symm⟩
    apply sum_pinf
    · intro v hv
      unfold lossTerms at hv
      obtain ⟨j, hj, rfl⟩ := List.mem_map.1 hv
      have hj' : j < n := by rw [← hq]; exact List.mem_range.1 hj
      rcases lossOf_spec hM hj' ha with h | ⟨x, h⟩
      · rw [h]
        simp [Flt.mul, Flt.signInf, hpos j hj' h]
      · rw [h]; simp [Flt.mul]
    · unfold lossTerms
      have hk' : k < n := by rw [← hM.labels]; exact hk
      refine List.mem_map.2 ⟨k, List.mem_range.2 (by rw [hq]; exact hk'), ?_⟩
      rw [h1]
      simp [Flt.mul, Flt.signInf, hpos k hk' h1]
  · intro h
    have e : lossTerms (probs r) M a =
        ((List.range (probs r).length).map fun k => pr (probs r) k * numOf (lossOf M k a)).map Flt.fin := by
      unfold lossTerms
      rw [List.map_map]
      refine List.map_congr_left fun k hk => ?_
      have hk' : k < n := by rw [← hq]; exact List.mem_range.1 hk
      rcases lossOf_spec hM hk' ha with h' | ⟨x, h'⟩
      · exact absurd ⟨k, by rw [hM.labels]; exact hk', h'⟩ h
      · simp [h', numOf]
    rw [e, Flt.sum_fin]
    rfl

theorem decision_row {r : List (Flt ℝ)} {n m : Nat} {M : List (List (Flt ℝ))} (hr : LogProbs r) (hl : r.length = n)
    (hM : IsLossMat n m M) :
    ∃ a, argmin (dotRow (r.map fexp) ⟨m, M⟩) = .ok a ∧ a < m ∧ DecisionFor m M (probs r) a := by
  rw [dotRow_flt hr hl hM]
  obtain ⟨a, h1, h2, h3, h4⟩ := argmin_flt (fun a => Flt.sum (lossTerms (probs r) M a)) hM.actions
  have key := fun b (hb : b < m) => terms_spec (r := r) hl hM hb
  have hnan : ∀ b < m, (Flt.sum (lossTerms (probs r) M b) = .nan ↔ ForbiddenAtZero (probs r) M b) := by
    intro b hb
    obtain ⟨k1, k2, k3⟩ := key b hb
    refine ⟨fun h => ?_, k1⟩
    by_contra hc
    by_cases hf : Forbidden M b
    · rw [k2 hc hf] at h; cases h
    · rw [k3 hf] at h; cases h
  refine ⟨a, h1, h2, ?_, ?_, ?_⟩
  · rintro ⟨b, hb, hb'⟩
    obtain ⟨g1, g2⟩ := h3 ⟨b, hb, (hnan b hb).2 hb'⟩
    exact ⟨h2, (hnan a h2).1 g1, fun j hj hc => g2 j hj ((hnan j (hj.trans h2)).2 hc)⟩
  · rintro hz ⟨b, hb, hb'⟩
    obtain ⟨g1, g2⟩ := h4 fun j hj hc => hz j hj ((hnan j hj).1 hc)
    have ha : ¬ Forbidden M a := by
      intro hc
      have := g1 b hb
      simp only [(key a h2).2.1 (hz a h2) hc, (key b hb).2.2 hb', Flt.not_pinf_le_fin] at this
    refine ⟨h2, ha, fun c hc hc' => ⟨?_, fun hca => ?_⟩⟩
    · have := g1 c hc
      simpa only [(key a h2).2.2 ha, (key c hc).2.2 hc', Flt.fin_le_fin] using this
    · have := g2 c hca
      simpa only [(key a h2).2.2 ha, (key c hc).2.2 hc', Flt.fin_lt_fin] using this
  · intro hz hall
    obtain ⟨g1, g2⟩ := h4 fun j hj hc => hz j hj ((hnan j hj).1 hc)
    by_contra hne
    have := g2 0 (Nat.pos_of_ne_zero hne)
    have h0 : 0 < m := hM.actions
    simp only [(key a h2).2.1 (hz a h2) (hall a h2), (key 0 h0).2.1 (hz 0 h0) (hall 0 h0), lt_irrefl] at this

/-- **C102.**  With numbers and plus infinity as losses, `hard_loss_decision` takes for every row of
predictions: the first action that has an infinite loss for a label predicted with probability
exactly 0, if there is one, whatever its other losses; otherwise the first action with the least
expected loss among those without an infinite loss; action 0 if every action has one. -/
theorem C102_decision {p : Mat ℝ} (hp : ∀ r ∈ p.rows, LogProbs r ∧ r.length = p.ncols) {m : Nat}
    {M : List (List (Flt ℝ))} (hM : IsLossMat p.ncols m M) :
    ∃ A, hardLossDecision p ⟨m, M⟩ = .ok A ∧ A.length = p.rows.length ∧
      ∀ (i : Nat) (r : List (Flt ℝ)), p.rows[i]? = some r →
        ∃ a, A[i]? = some a ∧ a < m ∧ DecisionFor m M (probs r) a := by
  have hact : ∀ r : List (Flt ℝ), ∃ a, r ∈ p.rows → argmin (dotRow (r.map fexp) ⟨m, M⟩) = .ok a ∧ a < m ∧
      DecisionFor m M (probs r) a := by
    intro r
    by_cases hr : r ∈ p.rows
    · obtain ⟨a, ha⟩ := decision_row (hp r hr).1 (hp r hr).2 hM
      exact ⟨a, fun _ => ha⟩
    · exact ⟨0, fun h => absurd h hr⟩
  choose act hact using hact
  refine ⟨p.rows.map act, ?_, by simp, ?_⟩
  · unfold hardLossDecision dot argminRows
    have := hM.actions
    rw [if_pos (by simp [expMat, hM.labels]), ok_bind, if_neg (by simp only; omega)]
    simp only [expMat, List.map_map]
    rw [mapM_ok_iff, List.forall₂_map_left_iff, List.forall₂_map_right_iff, List.forall₂_same]
    exact fun r hr => (hact r hr).1
  · intro i r hr
    have hm := List.mem_of_getElem? hr
    exact ⟨act r, by rw [List.getElem?_map, hr]; rfl, (hact r hm).2⟩

/-- **C102, invalid matrices.**  A loss matrix without a row for each label or without actions raises ValueError in
`hard_loss_decision`, even if there are no predictions. -/
theorem C102_reject {p M : Mat ℝ} (h : M.rows.length ≠ p.ncols ∨ M.ncols = 0) : hardLossDecision p M = .error .valueError := by
  unfold hardLossDecision dot argminRows
  split_ifs with hl
  · have : M.ncols = 0 := h.resolve_left fun hn => hn hl.symm
    simp only [ok_bind, this, if_true]
  · rfl

/-- **C102, the loss.**  `hard_loss` returns for every sample the loss of the action decided on. -/
theorem C102_loss {y : LabelVec} {p : Mat ℝ} (h : ClassInput y p) (hp : ∀ r ∈ p.rows, LogProbs r) {m : Nat}
    {M : List (List (Flt ℝ))} (hM : IsLossMat p.ncols m M) :
    ∃ L, hardLoss (some ⟨m, M⟩) y p = .ok L ∧ PerSample (fun r k v => ∃ a < m,
      DecisionFor m M (probs r) a ∧ v = lossOf M k a) y p L := by
  obtain ⟨A, hA, hlen, hspec⟩ := C102_decision (fun r hr => ⟨hp r hr, h.rows r hr⟩) hM
  unfold hardLoss
  rw [validate_ok h, ok_bind]
  simp only [Option.getD_some, pyAssert_bind]
  rw [if_pos (by simpa using hM.labels), if_pos (by simpa using hM.actions), hA, ok_bind]
  have hval : ∀ (k a : Nat), k < p.ncols → a < m →
      (do let row ← pyIdx M (k : Int); pyIdx row (a : Int) : Py (Flt ℝ)) = .ok (lossOf M k a) := by
    intro k a hk ha
    have hk' : k < M.length := by rw [hM.labels]; exact hk
    have ha' : a < M[k].length := by rw [hM.width _ (List.getElem_mem hk')]; exact ha
    rw [pyIdx_ok hk', ok_bind, pyIdx_ok ha', lossOf, getD_eq _ _ hk', getD_eq _ _ ha']
  have hall : ∀ q ∈ List.zip y.vals A, (do
      let row ← pyIdx M q.1
      pyIdx row (q.2 : Int) : Py (Flt ℝ)) = .ok (lossOf M q.1.toNat q.2) := by
    rintro ⟨k, a⟩ hq
    obtain ⟨h1, h2⟩ := List.of_mem_zip hq
    obtain ⟨g1, g2⟩ := h.range k h1
    obtain ⟨j, rfl⟩ := Int.eq_ofNat_of_zero_le g1
    obtain ⟨i, hi, rfl⟩ := List.getElem_of_mem h2
    have hi' : i < p.rows.length := by rw [← hlen]; exact hi
    obtain ⟨a, e1, e2, -⟩ := hspec i _ (List.getElem?_eq_getElem hi')
    rw [List.getElem?_eq_getElem hi, Option.some.injEq] at e1
    exact hval j A[i] (by exact_mod_cast g2) (by rw [e1]; exact e2)
  refine ⟨_, mapM_eq_ok_map _ (fun q : Int × Nat => lossOf M q.1.toNat q.2) _ hall, ?_, ?_⟩
  · simp [hlen, h.length]
  · intro i k r hr hk
    obtain ⟨a, e1, e2, e3⟩ := hspec i r hr
    refine ⟨lossOf M k a, ?_, a, e2, e3, rfl⟩
    have hz : (List.zip y.vals A)[i]? = some ((k : Int), a) := List.getElem?_zip_eq_some.2 ⟨hk, e1⟩
    rw [List.getElem?_map, hz]
    rfl

/-! ### Examples -/

/-- Two labels, two actions; the second action is ruinous if label 0 is true and expensive if label 1
is true. -/
noncomputable def riskyMat : List (List (Flt ℝ)) := [[.fin 1, .pinf], [.fin 1, .fin 5]]

theorem riskyMat_ok : IsLossMat 2 2 riskyMat :=
  ⟨rfl, by norm_num, by simp [riskyMat], by simp [riskyMat]⟩

/-- Predictions for two samples: label 0 has probability 1/2, then exactly 0. -/
noncomputable def riskyPred : Mat ℝ :=
  ⟨2, [[.fin (Real.log (1 / 2)), .fin (Real.log (1 / 2))], [.ninf, .fin 0]]⟩

theorem riskyPred_ok : ∀ r ∈ riskyPred.rows, LogProbs r ∧ r.length = riskyPred.ncols := by
  simp [riskyPred, LogProbs]

theorem risky_forbidden : Forbidden riskyMat 1 ∧ ¬ Forbidden riskyMat 0 := by
  refine ⟨⟨0, by simp [riskyMat], by simp [lossOf, riskyMat]⟩, ?_⟩
  rintro ⟨k, hk, h⟩
  have : k < 2 := hk
  interval_cases k <;> simp [lossOf, riskyMat] at h

/-- A loss matrix without actions, and one for three labels. -/
example : hardLossDecision riskyPred ⟨0, [[], []]⟩ = .error .valueError ∧
    hardLossDecision riskyPred ⟨1, [[.fin 0], [.fin 1], [.fin 2]]⟩ = .error .valueError :=
  ⟨C102_reject (.inr rfl), C102_reject (.inl (by simp [riskyPred]))⟩

/-- **C102 on an example.**  The second action is avoided for the first sample, as it should be, but
taken for the second one, although it costs 5 there and the first action costs 1. -/
example : hardLossDecision riskyPred ⟨2, riskyMat⟩ = .ok [0, 1] := by
  obtain ⟨A, hA, hl, hs⟩ := C102_decision riskyPred_ok riskyMat_ok
  rw [hA]
  obtain ⟨a, e1, a1, -, d2, -⟩ := hs 0 _ rfl
  obtain ⟨b, e2, b1, f1, -, -⟩ := hs 1 _ rfl
  have ha : a = 0 := by
    have hz : ∀ b < 2, ¬ ForbiddenAtZero (probs [.fin (Real.log (1 / 2)), .fin (Real.log (1 / 2))]) riskyMat b := by
      rintro b hb ⟨k, hk, -, h⟩
      have hk' : k < 2 := hk
      have h2 : Real.exp (Real.log (1 / 2)) ≠ 0 := (Real.exp_pos _).ne'
      interval_cases k <;> simp [pr, probs, prob] at h
    have := (d2 hz ⟨0, by norm_num, risky_forbidden.2⟩).2.1
    interval_cases a
    · rfl
    · exact absurd risky_forbidden.1 this
  have hb : b = 1 := by
    have h1 : ForbiddenAtZero (probs [.ninf, .fin 0]) riskyMat 1 :=
      ⟨0, by simp [riskyMat], by simp [lossOf, riskyMat], by simp [pr, probs, prob]⟩
    have := (f1 ⟨1, by norm_num, h1⟩).2.1
    interval_cases b
    · obtain ⟨k, hk, h, -⟩ := this
      exact absurd ⟨k, hk, h⟩ risky_forbidden.2
    · rfl
  subst ha hb
  have hl2 : A.length = 2 := hl
  match A, hl2 with
  | [x, z], _ =>
    simp only [List.getElem?_cons_zero, List.getElem?_cons_succ, Option.some.injEq] at e1 e2
    rw [e1, e2]

end Mlp.Props
