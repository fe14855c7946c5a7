import Verif.Lemmas.Ieee
import Verif.Lemmas.PerfRoundRows

/-! # Vectors of doubles far from overflow and underflow -/

set_option linter.unusedSectionVars false

namespace Mlp.Lemmas
open Mlp.Round Mlp.Spec Mlp.Util Mlp.Perf Mlp.PerfR

/-! ## Congruence -/

theorem bind_congr_eq {α β : Type} {x y : Py α} {f g : α → Py β} (h : x = y) (hf : ∀ a, y = .ok a → f a = g a) :
    (x >>= f) = (y >>= g) := by
  subst h
  cases hx : x with
  | error e => rfl
  | ok a => exact hf a hx

theorem assert_congr {α : Type} {b b' : Bool} {f g : Unit → Py α} (h : b = b') (hf : b' = true → f () = g ()) :
    (pyAssert b >>= f) = (pyAssert b' >>= g) := by
  subst h
  rw [pyAssert_bind, pyAssert_bind]
  split_ifs with hb
  · exact hf hb
  · rfl

theorem zipWith_congr_mem {α β γ : Type} {f g : α → β → γ} {l : List α} {l' : List β}
    (h : ∀ a ∈ l, ∀ b ∈ l', f a b = g a b) : List.zipWith f l l' = List.zipWith g l l' := by
  induction l generalizing l' with
  | nil => rfl
  | cons a l ih =>
    cases l' with
    | nil => rfl
    | cons b l' =>
      rw [List.zipWith_cons_cons, List.zipWith_cons_cons, h a (by simp) b (by simp),
        ih fun a ha b hb => h a (by simp [ha]) b (by simp [hb])]

theorem mem_zipWith_of {α β γ : Type} {f : α → β → γ} {l : List α} {l' : List β} {c : γ} (h : c ∈ List.zipWith f l l') :
    ∃ a ∈ l, ∃ b ∈ l', c = f a b := by
  induction l generalizing l' with
  | nil => simp at h
  | cons a l ih =>
    cases l' with
    | nil => simp at h
    | cons b l' =>
      rw [List.zipWith_cons_cons, List.mem_cons] at h
      rcases h with h | h
      · exact ⟨a, by simp, b, by simp, h⟩
      · obtain ⟨a', ha, b', hb, e⟩ := ih h
        exact ⟨a', by simp [ha], b', by simp [hb], e⟩

theorem mapM_mem_of {α β : Type} {f : α → Py β} {l : List α} {r : List β} (h : l.mapM f = .ok r) {b : β} (hb : b ∈ r) :
    ∃ a ∈ l, f a = .ok b := by
  rw [mapM_ok_iff] at h
  induction h with
  | nil => simp at hb
  | cons h1 _ ih =>
    rcases List.mem_cons.1 hb with rfl | hb
    · exact ⟨_, by simp, h1⟩
    · obtain ⟨a, ha, e⟩ := ih hb
      exact ⟨a, by simp [ha], e⟩

theorem pyIdx_mem {β : Type} {l : List β} {i : Int} {b : β} (h : pyIdx l i = .ok b) : b ∈ l := by
  unfold pyIdx at h
  simp only at h
  generalize (if i < 0 then i + (l.length : Int) else i) = j at h
  split_ifs at h
  cases hg : l[j.toNat]? with
  | none => rw [hg] at h; simp at h
  | some v =>
    rw [hg] at h
    simp only [Except.ok.injEq] at h
    exact h ▸ List.mem_of_getElem? hg

theorem takeIdx_mem {β : Type} {idx : List Nat} {l r : List β} (h : takeIdx idx l = .ok r) {b : β} (hb : b ∈ r) : b ∈ l := by
  obtain ⟨i, -, e⟩ := mapM_mem_of h hb
  exact pyIdx_mem e

theorem takeIdx_length {β : Type} {idx : List Nat} {l r : List β} (h : takeIdx idx l = .ok r) : r.length = idx.length := by
  unfold takeIdx at h
  rw [mapM_ok_iff] at h
  exact h.length_eq.symm

theorem mask_mem_of {β : Type} {m : List Bool} {l : List β} {v : β} (hv : v ∈ mask m l) : v ∈ l := by
  induction m generalizing l with
  | nil => simp [mask] at hv
  | cons b m ih =>
    cases l with
    | nil => cases b <;> simp [mask] at hv
    | cons a l =>
      cases b
      · exact List.mem_cons_of_mem _ (ih (by simpa [mask] using hv))
      · rcases List.mem_cons.1 (show v ∈ a :: mask m l by simpa [mask] using hv) with h | h
        · simp [h]
        · exact List.mem_cons_of_mem _ (ih h)

theorem mask_length_le_of {β : Type} (m : List Bool) (l : List β) : (mask m l).length ≤ l.length := by
  induction m generalizing l with
  | nil => simp [mask]
  | cons b m ih =>
    cases l with
    | nil => cases b <;> simp [mask]
    | cons a l => cases b <;> simp [mask] <;> have := ih l <;> omega

section
variable {K : Type} [Field K] [LinearOrder K] [IsStrictOrderedRing K] [FloorRing K] {rnd : K → K} (hi : FollowsIeee rnd)
  {k k' e e' : Nat}
include hi

theorem rnd_dyadic {x : K} (h : OnGrid k e x) (hk : k ≤ 1074) (he : e ≤ 1023) : rnd x = binary64 x :=
  hi.eq (h.inRange hk he)

/-! ## Differences and sums -/

theorem diffR_ieee {l : List K} (h : ∀ v ∈ l, OnGrid k e v) (hk : k ≤ 1074) (he : e + 1 ≤ 1023) :
    diffR rnd l = diffR binary64 l := by
  unfold diffR
  exact zipWith_congr_mem fun a ha b hb => rnd_dyadic hi ((h b (List.mem_of_mem_tail hb)).sub (h a ha)) hk he

omit hi in
theorem binary64_mul_pow (j e : Nat) (hj : j ≤ 2 ^ 53) : binary64 ((j : K) * 2 ^ e) = j * 2 ^ e := by
  have := binary64_exact (K := K) j e (by rw [abs_of_nonneg (by omega)]; exact_mod_cast hj)
  simpa using this

omit hi in
theorem nat_mul_pow_le {j e : Nat} (hj : j ≤ 2 ^ 53) : (j : K) * 2 ^ e ≤ 2 ^ (e + 53) := by
  rw [add_comm, pow_add]
  refine mul_le_mul_of_nonneg_right ?_ (by positivity)
  exact_mod_cast hj

theorem cumsumR_ieee (hk : k ≤ 1074) (he : e + 53 ≤ 1023) {l : List K} (h : ∀ v ∈ l, OnGrid k e v ∧ 0 ≤ v) {acc : K} {j : Nat}
    (ha : OnGrid k (e + 53) acc) (h0 : 0 ≤ acc) (hb : acc ≤ j * 2 ^ e) (hj : j + l.length ≤ 2 ^ 53) :
    cumsumR rnd acc l = cumsumR binary64 acc l ∧ ∀ v ∈ cumsumR binary64 acc l, OnGrid k (e + 53) v ∧ 0 ≤ v := by
  induction l generalizing acc j with
  | nil => simp [cumsumR]
  | cons a l ih =>
    have hb64 := binary64_floatRounding (K := K)
    simp only [List.length_cons] at hj
    obtain ⟨d1, p1⟩ := h a (by simp)
    have ha1 : a ≤ 2 ^ e := le_trans (le_abs_self a) d1.2
    have hs : acc + a ≤ ((j + 1 : Nat) : K) * 2 ^ e := by push_cast; linarith
    have hs0 : 0 ≤ acc + a := by linarith
    have hd : OnGrid k (e + 53) (acc + a) := by
      refine ((ha.add (d1.mono le_rfl (by omega))).bound ?_)
      rw [abs_of_nonneg hs0]
      exact hs.trans (nat_mul_pow_le (by omega))
    have hr : rnd (acc + a) = binary64 (acc + a) := rnd_dyadic hi hd hk he
    have hb' : binary64 (acc + a) ≤ ((j + 1 : Nat) : K) * 2 ^ e := by
      have := hb64.mono hs
      rwa [binary64_mul_pow (j + 1) e (by omega)] at this
    obtain ⟨i1, i2⟩ := ih (fun v hv => h v (by simp [hv])) hd.rnd (hb64.nonneg hs0) hb' (by omega)
    constructor
    · simp only [cumsumR]
      rw [hr, i1]
    · intro v hv
      simp only [cumsumR, List.mem_cons] at hv
      rcases hv with rfl | hv
      · exact ⟨hd.rnd, hb64.nonneg hs0⟩
      · exact i2 v hv

theorem tree_ieee (hk : k ≤ 1074) (he : e + 53 ≤ 1023) {t : SumTree K} (h : ∀ v ∈ t.leaves, OnGrid k e v)
    (hl : t.leaves.length ≤ 2 ^ 53) : t.eval rnd = t.eval binary64 ∧ (∃ m : Int, t.eval binary64 * 2 ^ k = m) ∧
      |t.eval binary64| ≤ (t.leaves.length : K) * 2 ^ e := by
  induction t with
  | leaf v =>
    have := h v (by simp [SumTree.leaves])
    exact ⟨rfl, this.1, by simpa [SumTree.leaves, SumTree.eval] using this.2⟩
  | node a b iha ihb =>
    simp only [SumTree.leaves, List.length_append] at hl h ⊢
    obtain ⟨a1, a2, a3⟩ := iha (fun v hv => h v (List.mem_append_left _ hv)) (by omega)
    obtain ⟨b1, b2, b3⟩ := ihb (fun v hv => h v (List.mem_append_right _ hv)) (by omega)
    have hs : |a.eval binary64 + b.eval binary64| ≤ ((a.leaves.length + b.leaves.length : Nat) : K) * 2 ^ e := by
      push_cast
      linarith [abs_add_le (a.eval binary64) (b.eval binary64)]
    have hd : OnGrid k (e + 53) (a.eval binary64 + b.eval binary64) := by
      obtain ⟨m, hm⟩ := a2
      obtain ⟨n, hn⟩ := b2
      refine ⟨⟨m + n, by push_cast; rw [← hm, ← hn]; ring⟩, hs.trans (nat_mul_pow_le hl)⟩
    refine ⟨?_, hd.rnd.1, ?_⟩
    · simp only [SumTree.eval]
      rw [a1, b1, rnd_dyadic hi hd hk he]
    · simp only [SumTree.eval]
      have hb64 := binary64_floatRounding (K := K)
      rw [abs_le] at hs ⊢
      have e1 := binary64_mul_pow (K := K) (a.leaves.length + b.leaves.length) e hl
      constructor
      · have := hb64.mono hs.1
        rwa [hb64.neg, e1] at this
      · have := hb64.mono hs.2
        rwa [e1] at this

theorem sumBy_ieee (hk : k ≤ 1074) (he : e + 53 ≤ 1023) {order : List K → SumTree K} (ho : IsOrder order) {l : List K}
    (h : ∀ v ∈ l, OnGrid k e v) (hl : l.length ≤ 2 ^ 53) :
    sumBy order rnd l = sumBy order binary64 l ∧ OnGrid k (e + 53) (sumBy order binary64 l) := by
  unfold sumBy
  cases hle : l.isEmpty with
  | true => simpa using OnGrid.zero
  | false =>
    have hne : l ≠ [] := by simpa using hle
    have hp := ho l hne
    obtain ⟨h1, h2, h3⟩ := tree_ieee hi hk he (t := order l) (fun v hv => h v (hp.mem_iff.1 hv)) (by rw [hp.length_eq]; exact hl)
    simp only [Bool.false_eq_true, if_false]
    refine ⟨h1, h2, h3.trans (nat_mul_pow_le (by rw [hp.length_eq]; exact hl))⟩

omit hi in
theorem sumBy_trees {order : List K → SumTree K} (ho : IsOrder order) (rnd : K → K) : AddsAlongTrees rnd (sumBy order rnd) := by
  refine ⟨rfl, fun l hl => ⟨order l, ho l hl, ?_⟩⟩
  unfold sumBy
  rw [if_neg (by simpa using hl)]

/-! ## Constants -/

omit hi in
/-- `1/q` for a `q` that is not too large. -/
theorem inv_dyadic {q : K} {j : Nat} (hq : 1 ≤ q) (hj : q ≤ 2 ^ j) (hj2 : j ≤ 1022) :
    InRange (1 / q) ∧ OnGrid (j + 52) 0 (binary64 (1 / q)) ∧ 0 ≤ binary64 (1 / q) := by
  have hq0 : 0 < q := by linarith
  have h1 : (2 ^ j)⁻¹ ≤ |1 / q| := by
    rw [abs_of_pos (by positivity), one_div]
    exact inv_anti₀ hq0 hj
  have h2 : |1 / q| ≤ 2 ^ 0 := by
    rw [abs_of_pos (by positivity), pow_zero, div_le_one hq0]
    exact hq
  refine ⟨⟨h2.trans (pow_le_of (by norm_num)), Or.inl (le_trans ?_ h1)⟩, dyadic_rnd_of_ge h1 h2,
    binary64_floatRounding.nonneg (by positivity)⟩
  exact inv_anti₀ (by positivity) (pow_le_of hj2)

omit hi in
theorem epsilon_dyadic : InRange (epsilon : K) ∧ OnGrid 86 0 (binary64 (epsilon : K)) ∧ 0 ≤ binary64 (epsilon : K) := by
  unfold epsilon
  exact inv_dyadic (q := (10000000000 : K)) (j := 34) (by norm_num) (by norm_num) (by norm_num)

theorem epsilonR_ieee : epsilonR rnd = epsilonR binary64 := hi.eq epsilon_dyadic.1

theorem allcloseR_ieee {a b : K} (ha : OnGrid k e a) (hb : OnGrid k e b) (hk : k + 79 ≤ 1074) (he : e + 2 ≤ 1023) :
    allcloseR rnd a b = allcloseR binary64 a b := by
  obtain ⟨r1, d1, -⟩ := inv_dyadic (q := (100000000 : K)) (j := 27) (by norm_num) (by norm_num) (by norm_num)
  obtain ⟨r2, d2, -⟩ := inv_dyadic (q := (100000 : K)) (j := 17) (by norm_num) (by norm_num) (by norm_num)
  have d3 := d2.mul hb.abs
  have e3 := rnd_dyadic hi d3 (by omega) (by omega)
  have d4 := (d1.mono (k' := k + 79) (e' := e) (by omega) (by omega)).add
    (d3.rnd.mono (k' := k + 79) (e' := e) (by omega) (by omega))
  unfold allcloseR
  rw [rnd_dyadic hi (ha.sub hb) (by omega) (by omega), hi.eq r1, hi.eq r2, e3, rnd_dyadic hi d4 (by omega) (by omega)]

/-! ## Floats -/

omit hi in
/-- A float whose number, if it is one, is on the grid. -/
def GridFlt (k e : Nat) (v : Flt K) : Prop := ∀ x, v = .fin x → OnGrid k e x

omit hi in
theorem GridFlt.mono {v : Flt K} (h : GridFlt k e v) (hk : k ≤ k') (he : e ≤ e') : GridFlt k' e' v :=
  fun x hx => (h x hx).mono hk he

omit hi in
theorem GridFlt.fin {x : K} (h : OnGrid k e x) : GridFlt k e (.fin x) := by
  intro y hy
  rw [Flt.fin.injEq] at hy
  exact hy ▸ h

omit hi in
theorem GridFlt.neg {v : Flt K} (h : GridFlt k e v) : GridFlt k e v.neg := by
  cases v with
  | fin x => exact GridFlt.fin (h x rfl).neg
  | pinf => intro x hx; simp [Flt.neg] at hx
  | ninf => intro x hx; simp [Flt.neg] at hx
  | nan => intro x hx; simp [Flt.neg] at hx

/-- Rounding a float on the grid. -/
theorem rF_ieee {v : Flt K} (h : GridFlt k e v) (hk : k ≤ 1074) (he : e ≤ 1023) :
    rF rnd v = rF binary64 v ∧ GridFlt k e (rF binary64 v) := by
  cases v with
  | fin x => exact ⟨congrArg Flt.fin (rnd_dyadic hi (h x rfl) hk he), GridFlt.fin (h x rfl).rnd⟩
  | pinf => exact ⟨rfl, fun x hx => by simp [rF] at hx⟩
  | ninf => exact ⟨rfl, fun x hx => by simp [rF] at hx⟩
  | nan => exact ⟨rfl, fun x hx => by simp [rF] at hx⟩

omit hi in
theorem GridFlt.add {a b : Flt K} (ha : GridFlt k e a) (hb : GridFlt k e b) : GridFlt k (e + 1) (a.add b) := by
  intro x hx
  cases a <;> cases b <;> simp [Flt.add] at hx
  exact hx ▸ (ha _ rfl).add (hb _ rfl)

omit hi in
theorem GridFlt.sub {a b : Flt K} (ha : GridFlt k e a) (hb : GridFlt k e b) : GridFlt k (e + 1) (a.sub b) := ha.add hb.neg

omit hi in
theorem signInf_not_fin {x y : K} (h : Flt.signInf x = .fin y) : False := by
  unfold Flt.signInf at h
  split_ifs at h

omit hi in
theorem GridFlt.mul {a b : Flt K} (ha : GridFlt k e a) (hb : GridFlt k' e' b) : GridFlt (k + k') (e + e') (a.mul b) := by
  intro x hx
  cases a <;> cases b <;> simp only [Flt.mul, reduceCtorEq] at hx
  · rw [Flt.fin.injEq] at hx
    exact hx ▸ (ha _ rfl).mul (hb _ rfl)
  all_goals exact (signInf_not_fin hx).elim

/-- Division of floats on grids. -/
theorem rF_div_ieee {a b : Flt K} (ha : GridFlt k e a) (hb : GridFlt k' e' b) (h1 : k + e' ≤ 1022) (h2 : e + k' ≤ 1023) :
    rF rnd (a.div b) = rF binary64 (a.div b) ∧ GridFlt (k + e' + 52) (e + k') (rF binary64 (a.div b)) := by
  have hz : ∀ v : Flt K, (∀ x, v = .fin x → x = 0) → rF rnd v = rF binary64 v ∧ GridFlt (k + e' + 52) (e + k') (rF binary64 v) := by
    intro v hv
    have hz0 := rF_ieee hi (v := v) (k := 0) (e := 0) (fun x hx => hv x hx ▸ OnGrid.zero) (by norm_num) (by norm_num)
    exact ⟨hz0.1, hz0.2.mono (by omega) (by omega)⟩
  cases a with
  | fin x =>
    cases b with
    | fin y =>
      by_cases h0 : y = 0
      · refine hz _ fun z hz => ?_
        simp only [Flt.div, h0, if_true] at hz
        exact (signInf_not_fin hz).elim
      · rw [Flt.div_fin h0]
        have hx := ha x rfl
        have hy := hb y rfl
        exact ⟨congrArg Flt.fin (hi.eq (hx.div_inRange hy h0 h1 h2)), GridFlt.fin (hx.div_rnd hy h0)⟩
    | pinf => exact hz _ fun z hz => by simpa [Flt.div, eq_comm] using hz
    | ninf => exact hz _ fun z hz => by simpa [Flt.div, eq_comm] using hz
    | nan => exact hz _ fun z hz => by simp [Flt.div] at hz
  | pinf =>
    refine hz _ fun z hz => ?_
    cases b <;> simp only [Flt.div, reduceCtorEq] at hz
    split_ifs at hz
  | ninf =>
    refine hz _ fun z hz => ?_
    cases b <;> simp only [Flt.div, reduceCtorEq] at hz
    split_ifs at hz
  | nan => exact hz _ fun z hz => by simp [Flt.div] at hz

theorem diffFR_ieee {l : List (Flt K)} (h : ∀ v ∈ l, GridFlt k e v) (hk : k ≤ 1074) (he : e + 1 ≤ 1023) :
    diffFR rnd l = diffFR binary64 l ∧ ∀ v ∈ diffFR binary64 l, GridFlt k (e + 1) v := by
  unfold diffFR
  constructor
  · exact zipWith_congr_mem fun a ha b hb => (rF_ieee hi ((h b (List.mem_of_mem_tail hb)).sub (h a ha)) hk he).1
  · intro v hv
    obtain ⟨a, ha, b, hb, rfl⟩ := mem_zipWith_of hv
    exact (rF_ieee hi ((h b (List.mem_of_mem_tail hb)).sub (h a ha)) hk he).2

end
end Mlp.Lemmas
