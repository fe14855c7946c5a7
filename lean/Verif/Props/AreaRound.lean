import Verif.Props.CurveRoundExact
import Verif.Props.MeanRound
import Verif.Props.CurveBoot

/-!
# Property C114: areas and interpolation in floating point arithmetic

Nothing that only compares neighbours depends on rounding: `check_curve`, `unique_take_last`, `eval_step_func` and step
interpolation give the same results for every rounding.  Areas and linear interpolation are off by a few units in the last place.
-/

set_option linter.unusedSectionVars false

namespace Mlp.Props
open Mlp.PerfR Mlp.Perf Mlp.BootR Mlp.Boot Mlp.Util Mlp.Spec Mlp.Lemmas Mlp.CurveR Mlp.Classif Mlp.Frame Mlp.Round

section
variable {K : Type} [Field K] [LinearOrder K] [IsStrictOrderedRing K] [FloorRing K] {rnd : K → K} {sumR : List K → K}

/-! ### Signs -/

theorem rnd_nonneg_iff (hr : FloatRounding rnd) (x : K) : 0 ≤ rnd x ↔ 0 ≤ x := by
  constructor
  · intro h
    by_contra hx
    have := hr.pos (-x) (by linarith [not_le.1 hx])
    rw [hr.neg] at this
    linarith
  · exact fun h => hr.nonneg h

theorem rnd_pos_iff (hr : FloatRounding rnd) (x : K) : 0 < rnd x ↔ 0 < x := by
  constructor
  · intro h
    by_contra hx
    have := hr.mono (not_lt.1 hx)
    rw [hr.zero] at this
    linarith
  · exact hr.pos x

theorem le_rF (hr : FloatRounding rnd) (v : Flt K) : (Flt.fin 0).le (rF rnd v) = (Flt.fin 0).le v := by
  cases v with
  | fin x =>
    rw [Bool.eq_iff_iff]
    simpa [rF] using rnd_nonneg_iff hr x
  | _ => rfl

theorem lt_rF (hr : FloatRounding rnd) (v : Flt K) : (Flt.fin 0).lt (rF rnd v) = (Flt.fin 0).lt v := by
  cases v with
  | fin x =>
    rw [Bool.eq_iff_iff]
    simpa [rF] using rnd_pos_iff hr x
  | _ => rfl

theorem diffFR_eq (l : List (Flt K)) : diffFR rnd l = (diff l).map (rF rnd) := by
  rw [← diffFR_id, diffFR, diffFR, List.map_zipWith]
  simp only [rF_id]

theorem diffFR_le (hr : FloatRounding rnd) (l : List (Flt K)) :
    ((diffFR rnd l).all fun d => (Flt.fin 0).le d) = (diff l).all fun d => (Flt.fin 0).le d := by
  rw [diffFR_eq, List.all_map]
  congr 1
  funext v
  exact le_rF hr v

theorem diffFR_lt (hr : FloatRounding rnd) (l : List (Flt K)) :
    ((diffFR rnd l).map fun d => (Flt.fin 0).lt d) = (diff l).map fun d => (Flt.fin 0).lt d := by
  rw [diffFR_eq, List.map_map]
  congr 1
  funext v
  exact lt_rF hr v

theorem diffFR_lt_all (hr : FloatRounding rnd) (l : List (Flt K)) :
    ((diffFR rnd l).all fun d => (Flt.fin 0).lt d) = (diff l).all fun d => (Flt.fin 0).lt d := by
  rw [diffFR_eq, List.all_map]
  congr 1
  funext v
  exact lt_rF hr v

/-- **C114, `check_curve`.**  It accepts and rejects the same curves as in exact arithmetic. -/
theorem C114_check (hr : FloatRounding rnd) (c : Curve K × List (Flt K)) (g : Option (List (Flt K))) :
    checkCurveR rnd c g = checkCurve c g := by
  unfold checkCurveR checkCurve
  simp only [diffFR_le hr]

/-- **C114, `unique_take_last`.**  Rounding does not change the result. -/
theorem C114_take_last (hr : FloatRounding rnd) {β : Type} (x : List (Flt K)) (y : Option (List β)) :
    uniqueTakeLastR rnd x y = uniqueTakeLast x y := by
  unfold uniqueTakeLastR uniqueTakeLast
  simp only [diffFR_le hr, diffFR_lt hr]
  cases y <;> rfl

/-- **C114, `eval_step_func`.**  Rounding does not change the result. -/
theorem C114_step (hr : FloatRounding rnd) {β : Type} (argsort : List (Flt K) → List Nat) (g x : List (Flt K)) (y : List β)
    (ival : Option β) (sorted skip : Bool) :
    evalStepFuncR rnd argsort g x y ival sorted skip = evalStepFunc argsort g x y ival sorted skip := by
  unfold evalStepFuncR evalStepFunc
  simp only [diffFR_lt_all hr]
  cases ival <;> rfl

/-- **C114, step interpolation.**  For every kind but "linear" rounding does not change the result. -/
theorem C114_previous (hr : FloatRounding rnd) (other : Interp K) (g x y : List (Flt K)) {kind : Kind} (hk : kind ≠ .linear) :
    interp1dR rnd other g x y kind = interp1d other g x y kind := by
  unfold interp1dR interp1d
  simp only [diffFR_le hr, C114_take_last hr, C114_step hr]
  cases kind with
  | linear => exact absurd rfl hk
  | _ => rfl

/-! ### Areas -/

/-- A quantity of every piece of a curve. -/
def pieces (I : K → K → K → K → K) : List K → List K → List K
  | a :: b :: xs, y0 :: y1 :: ys => I a b y0 y1 :: pieces I (b :: xs) (y1 :: ys)
  | _, _ => []

theorem pieces_sum (I : K → K → K → K → K) : ∀ xs ys : List K, (pieces I xs ys).sum = pieceSum I xs ys
  | a :: b :: xs, y0 :: y1 :: ys => by
    rw [pieces, pieceSum, List.sum_cons, pieces_sum I (b :: xs) (y1 :: ys)]
  | [], _ => rfl
  | [_], _ => rfl
  | _ :: _ :: _, [] => rfl
  | _ :: _ :: _, [_] => rfl

theorem pieces_length (I : K → K → K → K → K) : ∀ xs ys : List K, xs.length = ys.length →
    (pieces I xs ys).length = xs.length - 1
  | a :: b :: xs, y0 :: y1 :: ys, h => by
    rw [pieces, List.length_cons, pieces_length I (b :: xs) (y1 :: ys) (by simpa using h)]
    simp
  | [], _, _ => rfl
  | [_], _, _ => by simp [pieces]
  | _ :: _ :: _, [_], h => by simp at h

/-- The rounded area of a piece. -/
def rectR (rnd : K → K) (a b y0 _y1 : K) : K := rnd (y0 * rnd (b - a))

def trapR (rnd : K → K) (a b y0 y1 : K) : K := rnd (rnd (rnd (b - a) * rnd (y1 + y0)) / 2)

def pieceOfR (rnd : K → K) : Kind → K → K → K → K → K
  | .previous => rectR rnd
  | _ => trapR rnd

theorem diffFR_cons (rnd : K → K) (a b : K) (xs : List K) :
    diffFR rnd (finVec (a :: b :: xs)) = Flt.fin (rnd (b - a)) :: diffFR rnd (finVec (b :: xs)) := by
  show rF rnd (Flt.sub (.fin b) (.fin a)) :: diffFR rnd (finVec (b :: xs)) = _
  rw [Flt.sub_fin]; rfl

theorem areaPrevR_fin {xs ys : List K} (hl : xs.length = ys.length) :
    areaPrevR rnd sumR (finVec xs) (finVec ys) = .fin (sumR (pieces (rectR rnd) xs ys)) := by
  have key : ∀ (xs ys : List K), xs.length = ys.length →
      List.zipWith (fun a d => rF rnd (Flt.mul a d)) (finVec ys).dropLast (diffFR rnd (finVec xs)) =
        finVec (pieces (rectR rnd) xs ys) := by
    intro xs
    induction xs with
    | nil =>
      intro ys h
      rw [List.eq_nil_of_length_eq_zero h.symm]
      rfl
    | cons a xs ih =>
      intro ys h
      match xs, ys, h with
      | [], [y0], _ => rfl
      | b :: xs, y0 :: y1 :: ys, h =>
        have h1 := ih (y1 :: ys) (by simpa using h)
        rw [diffFR_cons]
        show List.zipWith _ (Flt.fin y0 :: Flt.fin y1 :: finVec ys).dropLast _ = _
        rw [List.dropLast_cons_cons, List.zipWith_cons_cons]
        show _ :: List.zipWith _ (finVec (y1 :: ys)).dropLast (diffFR rnd (finVec (b :: xs))) = _
        rw [h1, Flt.mul_fin]
        rfl
  unfold areaPrevR
  rw [key xs ys hl]
  have : (finVec (pieces (rectR rnd) xs ys)).map (fun v => if v.isNaN then Flt.fin 0 else v) =
      finVec (pieces (rectR rnd) xs ys) := by
    unfold finVec
    rw [List.map_map]
    rfl
  rw [this, sumFR, if_pos (finVec_all_finite _), numbers_fin]

theorem trapzR_fin {xs ys : List K} (hl : xs.length = ys.length) :
    trapzR rnd sumR (finVec xs) (finVec ys) = .fin (sumR (pieces (trapR rnd) xs ys)) := by
  have key : ∀ (xs ys : List K), xs.length = ys.length →
      List.zipWith (fun d s => rF rnd ((rF rnd (Flt.mul d s)).div (.fin 2))) (diffFR rnd (finVec xs))
        (List.zipWith (fun a b => rF rnd (Flt.add a b)) (finVec ys).tail (finVec ys).dropLast) =
        finVec (pieces (trapR rnd) xs ys) := by
    intro xs
    induction xs with
    | nil =>
      intro ys h
      rw [List.eq_nil_of_length_eq_zero h.symm]
      rfl
    | cons a xs ih =>
      intro ys h
      match xs, ys, h with
      | [], [y0], _ => rfl
      | b :: xs, y0 :: y1 :: ys, h =>
        have h1 := ih (y1 :: ys) (by simpa using h)
        rw [diffFR_cons]
        have e2 : List.zipWith (fun a b => rF rnd (Flt.add a b)) (finVec (y0 :: y1 :: ys)).tail (finVec (y0 :: y1 :: ys)).dropLast =
            Flt.fin (rnd (y1 + y0)) ::
              List.zipWith (fun a b => rF rnd (Flt.add a b)) (finVec (y1 :: ys)).tail (finVec (y1 :: ys)).dropLast := by
          show List.zipWith _ (Flt.fin y1 :: finVec ys) (Flt.fin y0 :: Flt.fin y1 :: finVec ys).dropLast = _
          rw [List.dropLast_cons_cons, List.zipWith_cons_cons, Flt.add_fin]
          rfl
        rw [e2, List.zipWith_cons_cons, h1, Flt.mul_fin]
        simp only [rF, Flt.div_fin (two_ne_zero (α := K))]
        rfl
  unfold trapzR
  rw [key xs ys hl, sumFR, if_pos (finVec_all_finite _), numbers_fin]

/-- The areas in floating point arithmetic, in closed form. -/
theorem areaR_closed {n : Nat} {X Y : List (List K)} (hn : 2 ≤ n) (hX : ∀ r ∈ X, r.length = n)
    (hY : ∀ r ∈ Y, r.length = n) (hl : X.length = Y.length) {kind : Kind}
    (hk : kind = .previous ∨ kind = .linear) :
    areaR rnd sumR (finMat n X) (finMat n Y) kind =
      .ok (finVec (List.zipWith (fun x y => sumR (pieces (pieceOfR rnd kind) x y)) X Y)) := by
  have hlen : ∀ p ∈ List.zip X Y, p.1.length = p.2.length := by
    rintro ⟨x, y⟩ hp
    have := List.of_mem_zip hp
    rw [hX x this.1, hY y this.2]
  have hz : ∀ {f : List (Flt K) → List (Flt K) → Flt K} {g : List K → List K → K},
      (∀ x y : List K, x.length = y.length → f (finVec x) (finVec y) = .fin (g x y)) →
      List.zipWith f (X.map finVec) (Y.map finVec) = finVec (List.zipWith g X Y) := by
    intro f g hfg
    unfold finVec at hfg ⊢
    rw [List.zipWith_map, List.map_zipWith]
    clear hX hY hl
    induction X generalizing Y with
    | nil => rfl
    | cons x X ih =>
      cases Y with
      | nil => rfl
      | cons y Y =>
        rw [List.zipWith_cons_cons, List.zipWith_cons_cons, hfg x y (hlen (x, y) (by simp)),
          ih fun p hp => hlen p (by simp [hp])]
  have hauc : ∀ zs : List K, ((finVec zs).any fun v => v.isNaN) = false := by
    intro zs
    have := (noNaN_any' (finVec zs)).2 (noNaN_finVec zs)
    simpa using this
  unfold areaR
  simp only [pyAssert_bind, finMat_noNaN, Bool.not_false, if_true]
  have h1 : (decide ((finMat n Y).rows.length = (finMat n X).rows.length) &&
      decide ((finMat n Y).ncols = (finMat n X).ncols)) = true := by
    simp [finMat, hl]
  have h2 : decide (2 ≤ (finMat n X).ncols) = true := decide_eq_true hn
  rw [h1, h2, if_pos rfl, if_pos rfl]
  rcases hk with rfl | rfl
  · have e : List.zipWith (areaPrevR rnd sumR) (finMat n X).rows (finMat n Y).rows =
        finVec (List.zipWith (fun x y => sumR (pieces (rectR rnd) x y)) X Y) := hz fun x y h => areaPrevR_fin h
    simp only [e, pure_eq_ok, ok_bind, hauc, Bool.not_false, if_true]
    rfl
  · have e : List.zipWith (trapzR rnd sumR) (finMat n X).rows (finMat n Y).rows =
        finVec (List.zipWith (fun x y => sumR (pieces (trapR rnd) x y)) X Y) := hz fun x y h => trapzR_fin h
    simp only [e, pure_eq_ok, ok_bind, hauc, Bool.not_false, if_true]
    rfl

/-- A number with relative error at most `q - 1`. -/
def Near (q x' x : K) : Prop := |x' - x| ≤ (q - 1) * |x|

theorem Near.abs_le {q x' x : K} (h : Near q x' x) : |x'| ≤ q * |x| := by
  have := abs_add_le (x' - x) x
  rw [sub_add_cancel] at this
  unfold Near at h
  linarith

theorem Near.rounded {u q x' x : K} (hu : 0 ≤ u) (he : RelError u rnd) (h : Near q x' x) : Near (q * (1 + u)) (rnd x') x := by
  have h1 := he x'
  have h2 := h.abs_le
  have h3 : u * |x'| ≤ u * (q * |x|) := mul_le_mul_of_nonneg_left h2 hu
  unfold Near at h ⊢
  have : rnd x' - x = (rnd x' - x') + (x' - x) := by ring
  rw [this]
  refine (abs_add_le _ _).trans ?_
  nlinarith

theorem Near.mul {p q x' x y' y : K} (hx : Near p x' x) (hy : Near q y' y) : Near (p * q) (x' * y') (x * y) := by
  have h1 := hx.abs_le
  unfold Near at *
  have : x' * y' - x * y = x' * (y' - y) + (x' - x) * y := by ring
  rw [this]
  refine (abs_add_le _ _).trans ?_
  rw [abs_mul, abs_mul, abs_mul]
  have h2 : |x'| * |y' - y| ≤ p * |x| * ((q - 1) * |y|) :=
    mul_le_mul h1 hy (abs_nonneg _) ((abs_nonneg _).trans h1)
  have h3 : |x' - x| * |y| ≤ (p - 1) * |x| * |y| := mul_le_mul_of_nonneg_right hx (abs_nonneg _)
  linarith

theorem Near.refl (x : K) : Near 1 x x := by simp [Near]

theorem Near.div_const {q x' x : K} (h : Near q x' x) {c : K} (hc : 0 < c) : Near q (x' / c) (x / c) := by
  unfold Near at *
  rw [← sub_div, abs_div, abs_div, abs_of_pos hc, ← mul_div_assoc]
  exact div_le_div_of_nonneg_right h hc.le

theorem piece_near {u : K} (hu : 0 ≤ u) (he : RelError u rnd) {kind : Kind} (hk : kind = .previous ∨ kind = .linear)
    (a b y0 y1 : K) : Near ((1 + u) ^ 4) (pieceOfR rnd kind a b y0 y1) (pieceOf kind a b y0 y1) := by
  have h1 := (Near.refl (b - a)).rounded hu he
  rcases hk with rfl | rfl
  · have h2 := ((Near.refl y0).mul h1).rounded hu he
    have e : (1 : K) * (1 * (1 + u)) * (1 + u) = (1 + u) ^ 2 := by ring
    rw [e] at h2
    refine h2.trans (mul_le_mul_of_nonneg_right ?_ (abs_nonneg _))
    exact sub_le_sub_right (pow_le_pow_right₀ (by linarith) (by norm_num)) 1
  · have h2 := ((h1.mul ((Near.refl (y1 + y0)).rounded hu he)).rounded hu he).div_const (c := 2) (by norm_num)
    have h3 := h2.rounded hu he
    have e : (1 : K) * (1 + u) * (1 * (1 + u)) * (1 + u) * (1 + u) = (1 + u) ^ 4 := by ring
    rw [e] at h3
    exact h3

theorem pieces_near {q : K} {I I' : K → K → K → K → K} (h : ∀ a b y0 y1, Near q (I' a b y0 y1) (I a b y0 y1)) :
    ∀ xs ys : List K, |(pieces I' xs ys).sum - (pieces I xs ys).sum| ≤ (q - 1) * ((pieces I xs ys).map fun v => |v|).sum ∧
      ((pieces I' xs ys).map fun v => |v|).sum ≤ q * ((pieces I xs ys).map fun v => |v|).sum
  | a :: b :: xs, y0 :: y1 :: ys => by
    obtain ⟨i1, i2⟩ := pieces_near h (b :: xs) (y1 :: ys)
    simp only [pieces, List.sum_cons, List.map_cons]
    have h1 := h a b y0 y1
    have h2 := h1.abs_le
    unfold Near at h1
    constructor
    · have : ∀ p p' s s' : K, p' + s' - (p + s) = (p' - p) + (s' - s) := fun _ _ _ _ => by ring
      rw [this]
      refine (abs_add_le _ _).trans ?_
      linarith
    · linarith
  | [], _ => by simp [pieces]
  | [_], _ => by simp [pieces]
  | _ :: _ :: _, [] => by simp [pieces]
  | _ :: _ :: _, [_] => by simp [pieces]

theorem sum_pieces_near (hs : AddsAlongTrees rnd sumR) {u : K} (hu : 0 ≤ u) (he : RelError u rnd) {kind : Kind}
    (hk : kind = .previous ∨ kind = .linear) {x y : List K} (h2 : 2 ≤ x.length) (hl : x.length = y.length) :
    |sumR (pieces (pieceOfR rnd kind) x y) - pieceSum (pieceOf kind) x y| ≤
      ((1 + u) ^ (x.length + 2) - 1) * ((pieces (pieceOf kind) x y).map fun v => |v|).sum := by
  obtain ⟨i1, i2⟩ := pieces_near (piece_near (rnd := rnd) hu he hk) x y
  have hlen := pieces_length (pieceOfR rnd kind) x y hl
  have h3 := sum_error_signed hu he hs (l := pieces (pieceOfR rnd kind) x y) (by
    intro e; rw [e] at hlen; simp at hlen; omega)
  rw [hlen, show x.length - 1 - 1 = x.length - 2 from by omega] at h3
  have e : (1 + u) ^ (x.length + 2) = (1 + u) ^ (x.length - 2) * (1 + u) ^ 4 := by
    rw [← pow_add]; congr 1; omega
  rw [e, ← pieces_sum]
  have hq : 1 ≤ (1 + u) ^ (x.length - 2) := one_le_pow₀ (by linarith)
  generalize (1 + u) ^ (x.length - 2) = q at *
  generalize (1 + u) ^ 4 = p at *
  generalize (pieces (pieceOf kind) x y).sum = S at *
  generalize ((pieces (pieceOf kind) x y).map fun v => |v|).sum = A at *
  generalize (pieces (pieceOfR rnd kind) x y).sum = S' at *
  have h4 := mul_le_mul_of_nonneg_left i2 (sub_nonneg.2 hq)
  have : sumR (pieces (pieceOfR rnd kind) x y) - S = (sumR (pieces (pieceOfR rnd kind) x y) - S') + (S' - S) := by ring
  rw [this]
  refine (abs_add_le _ _).trans ?_
  nlinarith

theorem abs_pieces {kind : Kind} (hk : kind = .previous ∨ kind = .linear) :
    ∀ {x y : List K}, x.Pairwise (· ≤ ·) → x.length = y.length →
      ((pieces (pieceOf kind) x y).map fun v => |v|).sum ≤ pieceSum (pieceOf kind) x (y.map fun v => |v|)
  | a :: b :: xs, y0 :: y1 :: ys, hp, hl => by
    have ih := abs_pieces hk (x := b :: xs) (y := y1 :: ys) (List.pairwise_cons.1 hp).2 (by simpa using hl)
    have hab : 0 ≤ b - a := sub_nonneg.2 ((List.pairwise_cons.1 hp).1 b (by simp))
    simp only [pieces, pieceSum, List.map_cons, List.sum_cons] at ih ⊢
    refine add_le_add ?_ ih
    rcases hk with rfl | rfl
    · simp only [pieceOf, rect, abs_mul, abs_of_nonneg hab]; exact le_rfl
    · simp only [pieceOf, trap, abs_mul, abs_div, abs_of_nonneg hab, abs_two]
      exact div_le_div_of_nonneg_right (mul_le_mul_of_nonneg_left (abs_add_le _ _) hab) (by norm_num)
  | [], _, _, _ => by simp [pieces, pieceSum]
  | [_], _, _, _ => by simp [pieces, pieceSum]
  | _ :: _ :: _, [_], _, hl => by simp at hl

/-- **C114, areas.**  For finite curves of `n ≥ 2` points with rising `x` and kind "previous" or "linear", `area` in floating
point arithmetic gives one finite number per row; its distance from the exact area is at most `(1 + u)^(n+2) - 1` times the
exact area below the absolute values. -/
theorem C114_area (hs : AddsAlongTrees rnd sumR) {u : K} (hu : 0 ≤ u) (he : RelError u rnd) {n : Nat} {X Y : List (List K)}
    (hn : 2 ≤ n) (hX : ∀ r ∈ X, r.length = n ∧ r.Pairwise (· ≤ ·)) (hY : ∀ r ∈ Y, r.length = n) (hl : X.length = Y.length)
    {kind : Kind} (hk : kind = .previous ∨ kind = .linear) :
    ∃ A S B : List K, areaR rnd sumR (finMat n X) (finMat n Y) kind = .ok (finVec A) ∧
      area (finMat n X) (finMat n Y) kind = .ok (finVec S) ∧
      area (finMat n X) (finMat n (Y.map fun r => r.map fun v => |v|)) kind = .ok (finVec B) ∧
      A.length = X.length ∧ ∀ (i : Nat) (a s b : K), A[i]? = some a → S[i]? = some s → B[i]? = some b →
        |a - s| ≤ ((1 + u) ^ (n + 2) - 1) * b := by
  refine ⟨_, _, _, areaR_closed hn (fun r hr => (hX r hr).1) hY hl hk, C61_area hn (fun r hr => (hX r hr).1) hY hl hk,
    C61_area hn (fun r hr => (hX r hr).1) (by
      intro r hr
      obtain ⟨q, hq, rfl⟩ := List.mem_map.1 hr
      rw [List.length_map]; exact hY q hq) (by rw [List.length_map]; exact hl) hk, by simp [hl], ?_⟩
  intro i a s b ha hs' hb
  rw [List.getElem?_zipWith] at ha hs' hb
  cases hx : X[i]? with
  | none => simp [hx] at ha
  | some x =>
    cases hy : Y[i]? with
    | none => simp [hx, hy] at ha
    | some y =>
      simp only [hx, hy, List.getElem?_map, Option.map_some, Option.some.injEq] at ha hs' hb
      subst ha hs' hb
      obtain ⟨hxl, hxp⟩ := hX x (List.mem_of_getElem? hx)
      have hyl := hY y (List.mem_of_getElem? hy)
      have h1 := sum_pieces_near (sumR := sumR) hs hu he hk (x := x) (y := y) (by omega) (by omega)
      rw [hxl] at h1
      refine h1.trans (mul_le_mul_of_nonneg_left (abs_pieces hk hxp (by omega)) (sub_nonneg.2 ?_))
      exact one_le_pow₀ (by linarith)

/-! ### Linear interpolation -/

theorem Near.inv {u x' x : K} (hu1 : u < 1) (hx : 0 < x) (h : |x' - x| ≤ u * |x|) : Near (1 / (1 - u)) x'⁻¹ x⁻¹ := by
  have hu2 : 0 < 1 - u := by linarith
  rw [abs_of_pos hx] at h
  have hx' : (1 - u) * x ≤ x' := by have := (_root_.abs_le.1 h).1; linarith
  have hp : 0 < x' := lt_of_lt_of_le (mul_pos hu2 hx) hx'
  have hu0 : 0 ≤ u := by
    by_contra hn
    have := (abs_nonneg _).trans h
    nlinarith [not_le.1 hn]
  unfold Near
  have e : x'⁻¹ - x⁻¹ = (x - x') / (x' * x) := by field_simp
  rw [e, abs_div, abs_of_pos (mul_pos hp hx), abs_of_pos (inv_pos.2 hx), abs_sub_comm, div_le_iff₀ (mul_pos hp hx)]
  refine h.trans ?_
  have e2 : (1 / (1 - u) - 1) * x⁻¹ * (x' * x) = u / (1 - u) * x' := by field_simp; ring
  rw [e2, div_mul_eq_mul_div, le_div_iff₀ hu2]
  nlinarith

theorem interp_const {u : K} (hu : 0 ≤ u) (hu1 : u ≤ 1 / 100) : (1 + u) ^ 4 * (1 / (1 - u)) - 1 ≤ 6 * u / (1 + u) := by
  have h1 : 0 < 1 - u := by linarith
  have h2 : 0 < 1 + u := by linarith
  rw [le_div_iff₀ h2, mul_one_div, sub_mul, div_mul_eq_mul_div, sub_le_iff_le_add, div_le_iff₀ h1]
  nlinarith [mul_nonneg hu hu, mul_nonneg hu (mul_nonneg hu hu), mul_nonneg (mul_nonneg hu hu) (mul_nonneg hu hu),
    mul_nonneg hu (mul_nonneg (mul_nonneg hu hu) (mul_nonneg hu hu)), mul_le_mul_of_nonneg_left hu1 hu,
    mul_le_mul_of_nonneg_left hu1 (mul_nonneg hu hu), mul_le_mul_of_nonneg_left hu1 (mul_nonneg hu (mul_nonneg hu hu)),
    mul_le_mul_of_nonneg_left hu1 (mul_nonneg (mul_nonneg hu hu) (mul_nonneg hu hu))]

/-- One linear piece, evaluated with rounding. -/
theorem piece_interp {u : K} (hu : 0 ≤ u) (hu1 : u ≤ 1 / 100) (he : RelError u rnd) {x0 x1 y0 y1 v w : K}
    (h0 : x0 ≤ v) (h1 : v < x1) (hw : (w - y0) * (x1 - x0) = (y1 - y0) * (v - x0)) :
    |rnd (rnd (rnd (rnd (y1 - y0) / rnd (x1 - x0)) * rnd (v - x0)) + y0) - w| ≤ u * |w| + 6 * u * |y1 - y0| := by
  have hd : 0 < x1 - x0 := by linarith
  have n1 := (Near.refl (y1 - y0)).rounded hu he
  have n2 := Near.inv (by linarith) hd (he (x1 - x0))
  have n3 := (n1.mul n2).rounded hu he
  have n4 := (n3.mul ((Near.refl (v - x0)).rounded hu he)).rounded hu he
  rw [← div_eq_mul_inv, ← div_eq_mul_inv] at n4
  have ew : (y1 - y0) / (x1 - x0) * (v - x0) = w - y0 := by
    rw [div_mul_eq_mul_div, ← hw, mul_div_cancel_right₀ _ hd.ne']
  rw [ew] at n4
  have hle : |w - y0| ≤ |y1 - y0| := by
    rw [← ew, abs_mul, abs_div, abs_of_pos hd, abs_of_nonneg (sub_nonneg.2 h0), div_mul_eq_mul_div, div_le_iff₀ hd]
    exact mul_le_mul_of_nonneg_left (by linarith) (abs_nonneg _)
  have ec : 1 * (1 + u) * (1 / (1 - u)) * (1 + u) * (1 * (1 + u)) * (1 + u) = (1 + u) ^ 4 * (1 / (1 - u)) := by ring
  rw [ec] at n4
  generalize rnd (rnd (rnd (y1 - y0) / rnd (x1 - x0)) * rnd (v - x0)) = P at *
  have hc := interp_const hu hu1
  have h4 : |P - (w - y0)| ≤ 6 * u / (1 + u) * |y1 - y0| := by
    refine (n4.trans (mul_le_mul_of_nonneg_right hc (abs_nonneg _))).trans ?_
    exact mul_le_mul_of_nonneg_left hle (by positivity)
  have h5 : |P + y0| ≤ |w| + |P - (w - y0)| := by
    have : P + y0 = w + (P - (w - y0)) := by ring
    rw [this]; exact abs_add_le _ _
  have h6 := (he (P + y0)).trans (mul_le_mul_of_nonneg_left h5 hu)
  have h7 : rnd (P + y0) - w = (rnd (P + y0) - (P + y0)) + (P - (w - y0)) := by ring
  rw [h7]
  refine (abs_add_le _ _).trans ?_
  have h8 : (1 + u) * |P - (w - y0)| ≤ 6 * u * |y1 - y0| := by
    refine (mul_le_mul_of_nonneg_left h4 (by linarith : 0 ≤ 1 + u)).trans (le_of_eq ?_)
    have : (1 + u) ≠ 0 := by positivity
    field_simp
  linarith

theorem npInterpR_line (hr : FloatRounding rnd) {u : K} (hu : 0 ≤ u) (hu1 : u ≤ 1 / 100) (he : RelError u rnd) {xs ys : List K}
    (hs : xs.Pairwise (· ≤ ·)) (hl : xs.length = ys.length) {lo hi : K} (hb : ∀ y ∈ ys, lo ≤ y ∧ y ≤ hi)
    {v : K} (h0 : ∃ x ∈ xs, x ≤ v) (h1 : ∃ x ∈ xs, v ≤ x) :
    ∃ w w' : K, npInterp (finVec xs) (finVec ys) (.fin v) = .ok (.fin w) ∧ npInterpR rnd (finVec xs) (finVec ys) (.fin v) = .ok (.fin w') ∧
      |w' - w| ≤ u * max |lo| |hi| + 6 * u * (hi - lo) ∧ ((∀ y ∈ ys, rnd y = y) → v ∈ xs → w' = w) := by
  obtain ⟨w, hw, hon⟩ := npInterp_line hs hl h0 h1
  have hw0 := hw
  have hlF : (finVec xs).length = xs.length := by simp [finVec]
  have hlY : (finVec ys).length = ys.length := by simp [finVec]
  have hsr : searchRight (finVec xs) (.fin v) = xs.countP fun a => decide (a ≤ v) := by
    unfold searchRight finVec
    rw [List.countP_map]
    congr 1
    funext a
    simp
  have hpos : 0 < xs.countP fun a => decide (a ≤ v) := by
    obtain ⟨x, hx, hxv⟩ := h0
    exact List.countP_pos_iff.2 ⟨x, hx, by simpa using hxv⟩
  have hle : (xs.countP fun a => decide (a ≤ v)) ≤ xs.length := List.countP_le_length
  obtain ⟨m, hm⟩ : ∃ m, (xs.countP fun a => decide (a ≤ v)) = m + 1 := ⟨_, (Nat.succ_pred_eq_of_pos hpos).symm⟩
  have hmv : ∀ (k : Nat) (hk : k < xs.length), xs[k] ≤ v ↔ k < m + 1 := by
    intro k hk; rw [← hm]; exact count_prefix hs v k hk
  have hcast : (((m + 1 : Nat) : Int) - 1) = (m : Int) := by omega
  have hlohi : lo ≤ hi := by
    obtain ⟨x, hx, -⟩ := h0
    obtain ⟨y, hy⟩ := List.exists_mem_of_length_pos (hl ▸ List.length_pos_of_mem hx)
    exact (hb y hy).1.trans (hb y hy).2
  have hnn : 0 ≤ u * max |lo| |hi| + 6 * u * (hi - lo) := by
    have : 0 ≤ hi - lo := sub_nonneg.2 hlohi
    positivity
  refine ⟨w, ?_⟩
  unfold npInterp at hw
  unfold npInterpR
  simp only [Flt.isNaN, Bool.false_eq_true, if_false, hsr, hm, hlF, Nat.succ_ne_zero, hcast] at hw ⊢
  by_cases hlast : m + 1 = xs.length
  · rw [if_pos hlast] at hw ⊢
    exact ⟨w, hw0, hw, by simpa using hnn, fun _ _ => rfl⟩
  · rw [if_neg hlast] at hw ⊢
    have hm1 : m + 1 < xs.length := by omega
    have hx0 := (hmv m (by omega)).2 (by omega)
    have hx1 : v < xs[m + 1] := by
      rw [← not_le, hmv (m + 1) hm1]; omega
    have hpos : 0 < xs[m + 1] - xs[m] := by linarith
    have hne := hpos.ne'
    have hne' := (hr.pos _ hpos).ne'
    rw [pyIdx_nat (finVec xs) m (by omega), pyIdx_nat (finVec xs) (m + 1) (by omega),
      pyIdx_nat (finVec ys) m (by omega), pyIdx_nat (finVec ys) (m + 1) (by omega)] at hw ⊢
    have e : ∀ (l : List K) (i : Nat) (h : i < (finVec l).length),
        (finVec l)[i] = Flt.fin (l[i]'(by simpa [finVec] using h)) := by
      intro l i h; simp [finVec]
    have hy1 : m + 1 < ys.length := by omega
    simp only [ok_bind, e, Flt.sub_fin, rF, Flt.div_fin hne, Flt.div_fin hne', Flt.mul_fin, Flt.add_fin, pure_eq_ok,
      Except.ok.injEq, Flt.fin.injEq] at hw ⊢
    have hb0 := hb ys[m] (List.getElem_mem _)
    have hb1 := hb ys[m + 1] (List.getElem_mem _)
    refine ⟨_, hw0, rfl, ?_, ?_⟩
    · have hk := piece_interp hu hu1 he hx0 hx1 (y0 := ys[m]) (y1 := ys[m + 1]) (w := w) (by
        rw [← hw]; field_simp; ring)
      refine hk.trans (add_le_add ?_ ?_)
      · refine mul_le_mul_of_nonneg_left ?_ hu
        obtain ⟨i, j, -, -, a, b, -, -, -, ha, hb', -, -, h3, h4⟩ := C60_between hon
        have b0 := hb a (List.mem_of_getElem? ha)
        have b1 := hb b (List.mem_of_getElem? hb')
        exact abs_le_max_abs_abs ((le_min b0.1 b1.1).trans h3) (h4.trans (max_le b0.2 b1.2))
      · refine mul_le_mul_of_nonneg_left ?_ (by positivity)
        rw [abs_le]; constructor <;> linarith [hb0.1, hb0.2, hb1.1, hb1.2]
    · intro hrep hv
      have hv0 : v = xs[m] := by
        obtain ⟨i, hi, rfl⟩ := List.getElem_of_mem hv
        have h5 := (hmv i hi).1 le_rfl
        rcases Nat.lt_or_ge i m with h6 | h6
        · exact le_antisymm (List.pairwise_iff_getElem.1 hs i m hi (by omega) h6) hx0
        · have : i = m := by omega
          subst this; rfl
      rw [← hw, hv0, sub_self, hr.zero, mul_zero, mul_zero, hr.zero, zero_add]
      exact hrep _ (List.getElem_mem _)

/-- **C114, linear interpolation.**  For a finite curve with rising `x` and values between `lo` and `hi` and a grid within the
curve, every value is within `u max(|lo|, |hi|) + 6 u (hi - lo)` of the exact one, and equal to it at the points of the curve. -/
theorem C114_linear (hr : FloatRounding rnd) {u : K} (hu : 0 ≤ u) (hu1 : u ≤ 1 / 100) (he : RelError u rnd) (other : Interp K)
    {xs ys : List K} (hs : xs.Pairwise (· ≤ ·)) (hl : xs.length = ys.length) (h2 : 2 ≤ xs.length) {lo hi : K}
    (hb : ∀ y ∈ ys, lo ≤ y ∧ y ≤ hi) {grid : List K} (hg : ∀ v ∈ grid, (∃ x ∈ xs, x ≤ v) ∧ ∃ x ∈ xs, v ≤ x) :
    ∃ out out' : List K, interp1d other (finVec grid) (finVec xs) (finVec ys) .linear = .ok (finVec out) ∧
      interp1dR rnd other (finVec grid) (finVec xs) (finVec ys) .linear = .ok (finVec out') ∧
      out'.length = grid.length ∧ out.length = grid.length ∧
      ∀ (i : Nat) (v w w' : K), grid[i]? = some v → out[i]? = some w → out'[i]? = some w' →
        |w' - w| ≤ u * max |lo| |hi| + 6 * u * (hi - lo) ∧ ((∀ y ∈ ys, rnd y = y) → v ∈ xs → w' = w) := by
  have hm : ∀ v ∈ grid, ∃ w w' : K, npInterp (finVec xs) (finVec ys) (.fin v) = .ok (.fin w) ∧
      npInterpR rnd (finVec xs) (finVec ys) (.fin v) = .ok (.fin w') ∧
      |w' - w| ≤ u * max |lo| |hi| + 6 * u * (hi - lo) ∧ ((∀ y ∈ ys, rnd y = y) → v ∈ xs → w' = w) :=
    fun v hv => npInterpR_line hr hu hu1 he hs hl hb (hg v hv).1 (hg v hv).2
  choose! F F' hF using hm
  have e1 : (finVec grid).mapM (fun v => npInterp (finVec xs) (finVec ys) v) = .ok (finVec (grid.map F)) := by
    unfold finVec
    rw [List.map_map, List.mapM_map]
    exact mapM_eq_ok_map _ _ _ fun v hv => (hF v hv).1
  have e2 : (finVec grid).mapM (fun v => npInterpR rnd (finVec xs) (finVec ys) v) = .ok (finVec (grid.map F')) := by
    unfold finVec
    rw [List.map_map, List.mapM_map]
    exact mapM_eq_ok_map _ _ _ fun v hv => (hF v hv).2.1
  obtain ⟨out, k1, -⟩ := C60_linear other hs hl h2 grid hg
  have hlF : (finVec xs).length = (finVec ys).length := by simpa [finVec] using hl
  have h2F : 2 ≤ (finVec xs).length := by simpa [finVec] using h2
  rw [interp1d_start other (sortable_finVec hs) hlF h2F] at k1
  have hout : out = grid.map F := by
    change scipyLinear _ _ _ = _ at k1
    unfold scipyLinear at k1
    rw [e1, ok_bind] at k1
    simp only [bind_ok_iff] at k1
    obtain ⟨a, -, b, -, k1⟩ := k1
    split_ifs at k1
    rw [pure_eq_ok, Except.ok.injEq] at k1
    exact (List.map_injective_iff.2 (fun a b hab => by simpa using hab) k1).symm
  refine ⟨out, grid.map F', ?_, ?_, by simp, by rw [hout]; simp, ?_⟩
  · rw [interp1d_start other (sortable_finVec hs) hlF h2F]; exact k1
  · unfold interp1dR
    rw [diffFR_le hr, (sortable_iff.1 (sortable_finVec hs)).2]
    simp only [hlF, decide_true, pyAssert_bind, if_true]
    rw [if_pos (decide_eq_true (by rw [← hlF]; exact h2F))]
    change scipyLinear _ _ _ = _ at k1
    unfold scipyLinear at k1
    unfold scipyLinearR
    rw [e1, ok_bind] at k1
    rw [e2, ok_bind]
    simp only [bind_ok_iff] at k1
    obtain ⟨a, ha, b, hb, k1⟩ := k1
    rw [ha, ok_bind, hb, ok_bind]
    split_ifs at k1 ⊢
    rfl
  · intro i v w w' hv hw hw'
    rw [hout, List.getElem?_map, hv] at hw
    rw [List.getElem?_map, hv] at hw'
    simp only [Option.map_some, Option.some.injEq] at hw hw'
    subst hw hw'
    exact (hF v (List.mem_of_getElem? hv)).2.2

end
end Mlp.Props
