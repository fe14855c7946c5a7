import Verif.Props.Interp
import Verif.Spec.Curves
import Mathlib.Analysis.SpecialFunctions.Integrals.Basic

/-! # C61: `area` -/

set_option linter.unusedSectionVars false

namespace Mlp.Props
open Mlp.Util Mlp.Spec Mlp.Lemmas

section
variable {K : Type} [Field K] [LinearOrder K] [IsStrictOrderedRing K]

/-- The sum over the pieces of a curve of a quantity of the two end points. -/
def pieceSum (I : K → K → K → K → K) : List K → List K → K
  | a :: b :: xs, y0 :: y1 :: ys => I a b y0 y1 + pieceSum I (b :: xs) (y1 :: ys)
  | _, _ => 0

/-- Area of the rectangle over `[a, b]` with the height at the left end. -/
def rect (a b y0 _y1 : K) : K := y0 * (b - a)

/-- Area of the trapezoid over `[a, b]`. -/
def trap (a b y0 y1 : K) : K := (b - a) * (y1 + y0) / 2

/-- The area of one piece, by kind. -/
def pieceOf : Kind → K → K → K → K → K
  | .previous => rect
  | _ => trap

theorem diff_finVec (xs : List K) : diff (finVec xs) = finVec (List.zipWith (fun a b => b - a) xs xs.tail) := by
  induction xs with
  | nil => rfl
  | cons a xs ih =>
    cases xs with
    | nil => rfl
    | cons b xs =>
      show Flt.sub (.fin b) (.fin a) :: diff (finVec (b :: xs)) = _
      rw [ih]
      simp [finVec, Flt.sub, Flt.neg, sub_eq_add_neg]

theorem areaPrev_cons (a b y0 y1 : Flt K) (xs ys : List (Flt K)) :
    List.zipWith Flt.mul (y0 :: y1 :: ys).dropLast (diff (a :: b :: xs)) =
      y0.mul (b.sub a) :: List.zipWith Flt.mul (y1 :: ys).dropLast (diff (b :: xs)) := by
  rw [List.dropLast_cons_cons]; rfl

theorem areaPrev_fin {xs ys : List K} (hl : xs.length = ys.length) :
    areaPrev (finVec xs) (finVec ys) = .fin (pieceSum rect xs ys) := by
  have key : ∀ (xs ys : List K), xs.length = ys.length →
      ∃ zs : List K, List.zipWith Flt.mul (finVec ys).dropLast (diff (finVec xs)) = finVec zs ∧
        zs.sum = pieceSum rect xs ys := by
    intro xs
    induction xs with
    | nil =>
      intro ys h
      rw [List.eq_nil_of_length_eq_zero h.symm]
      exact ⟨[], rfl, rfl⟩
    | cons a xs ih =>
      intro ys h
      match xs, ys, h with
      | [], [y0], _ => exact ⟨[], rfl, rfl⟩
      | b :: xs, y0 :: y1 :: ys, h =>
        obtain ⟨zs, h1, h2⟩ := ih (y1 :: ys) (by simpa using h)
        refine ⟨y0 * (b - a) :: zs, ?_, ?_⟩
        · show List.zipWith Flt.mul (Flt.fin y0 :: Flt.fin y1 :: finVec ys).dropLast
            (diff (Flt.fin a :: Flt.fin b :: finVec xs)) = _
          rw [areaPrev_cons]
          show _ :: List.zipWith Flt.mul (finVec (y1 :: ys)).dropLast (diff (finVec (b :: xs))) = _
          rw [h1]
          simp [finVec, Flt.sub, Flt.neg, sub_eq_add_neg]
        · rw [List.sum_cons, h2]; rfl
  obtain ⟨zs, h1, h2⟩ := key xs ys hl
  unfold areaPrev nansum
  rw [h1, ← h2, ← Flt.sum_fin]
  congr 1
  unfold finVec
  rw [List.map_map]
  congr 1

theorem trapz_fin {xs ys : List K} (hl : xs.length = ys.length) :
    trapz (finVec xs) (finVec ys) = .fin (pieceSum trap xs ys) := by
  have key : ∀ (xs ys : List K), xs.length = ys.length →
      ∃ zs : List K, List.zipWith (fun (d s : Flt K) => (Flt.mul d s).div (.fin 2)) (diff (finVec xs))
        (List.zipWith Flt.add (finVec ys).tail (finVec ys).dropLast) = finVec zs ∧
        zs.sum = pieceSum trap xs ys := by
    intro xs
    induction xs with
    | nil =>
      intro ys h
      rw [List.eq_nil_of_length_eq_zero h.symm]
      exact ⟨[], rfl, rfl⟩
    | cons a xs ih =>
      intro ys h
      match xs, ys, h with
      | [], [y0], _ => exact ⟨[], rfl, rfl⟩
      | b :: xs, y0 :: y1 :: ys, h =>
        obtain ⟨zs, h1, h2⟩ := ih (y1 :: ys) (by simpa using h)
        refine ⟨(b - a) * (y1 + y0) / 2 :: zs, ?_, ?_⟩
        · have e1 : diff (finVec (a :: b :: xs)) = Flt.fin (b - a) :: diff (finVec (b :: xs)) := by
            show Flt.sub (.fin b) (.fin a) :: diff (finVec (b :: xs)) = _
            simp [Flt.sub, Flt.neg, sub_eq_add_neg]
          have e2 : List.zipWith Flt.add (finVec (y0 :: y1 :: ys)).tail (finVec (y0 :: y1 :: ys)).dropLast =
              Flt.fin (y1 + y0) :: List.zipWith Flt.add (finVec (y1 :: ys)).tail (finVec (y1 :: ys)).dropLast := by
            show List.zipWith Flt.add (Flt.fin y1 :: finVec ys) (Flt.fin y0 :: Flt.fin y1 :: finVec ys).dropLast = _
            rw [List.dropLast_cons_cons, List.zipWith_cons_cons, Flt.add_fin]
            rfl
          rw [e1, e2, List.zipWith_cons_cons, h1, Flt.mul_fin, Flt.div_fin two_ne_zero]
          rfl
        · rw [List.sum_cons, h2]; rfl
  obtain ⟨zs, h1, h2⟩ := key xs ys hl
  unfold trapz
  rw [h1, ← h2, ← Flt.sum_fin]
  rfl

theorem noNaN_finVec (xs : List K) : NoNaN (finVec xs) := by simp [NoNaN, finVec]

theorem finMat_noNaN (n : Nat) (rows : List (List K)) :
    ((finMat n rows).rows.any fun r => r.any fun v => v.isNaN) = false := by
  rw [List.any_eq_false]
  intro r hr
  obtain ⟨xs, -, rfl⟩ := List.mem_map.1 hr
  have := (noNaN_any' (finVec xs)).2 (noNaN_finVec xs)
  rw [Bool.not_eq_true'] at this
  simp only [this, Bool.false_eq_true, not_false_eq_true]

/-- C61: for finite curves of at least two points, `area` is, row by row, the sum over the pieces of the
width times the left value (`'previous'`) or of the trapezoid (`'linear'`). -/
theorem C61_area {n : Nat} {X Y : List (List K)} (hn : 2 ≤ n) (hX : ∀ r ∈ X, r.length = n)
    (hY : ∀ r ∈ Y, r.length = n) (hl : X.length = Y.length) {kind : Kind}
    (hk : kind = .previous ∨ kind = .linear) :
    area (finMat n X) (finMat n Y) kind = .ok (finVec (List.zipWith (pieceSum (pieceOf kind)) X Y)) := by
  have hlen : ∀ p ∈ List.zip X Y, p.1.length = p.2.length := by
    rintro ⟨x, y⟩ hp
    have := List.of_mem_zip hp
    rw [hX x this.1, hY y this.2]
  have hz : ∀ {f : List (Flt K) → List (Flt K) → Flt K} {g : List K → List K → K},
      (∀ x y : List K, x.length = y.length → f (finVec x) (finVec y) = .fin (g x y)) →
      List.zipWith f (X.map finVec) (Y.map finVec) = finVec (List.zipWith g X Y) := by
    intro f g hfg
    unfold finVec at hfg ⊢
    rw [List.zipWith_map, List.map_zipWith]
    clear hX hY hl
    induction X generalizing Y with
    | nil => rfl
    | cons x X ih =>
      cases Y with
      | nil => rfl
      | cons y Y =>
        rw [List.zipWith_cons_cons, List.zipWith_cons_cons, hfg x y (hlen (x, y) (by simp)),
          ih fun p hp => hlen p (by simp [hp])]
  have hauc : ∀ zs : List K, ((finVec zs).any fun v => v.isNaN) = false := by
    intro zs
    have := (noNaN_any' (finVec zs)).2 (noNaN_finVec zs)
    simpa using this
  unfold area
  simp only [pyAssert_bind, finMat_noNaN, Bool.not_false, if_true]
  have h1 : (decide ((finMat n Y).rows.length = (finMat n X).rows.length) &&
      decide ((finMat n Y).ncols = (finMat n X).ncols)) = true := by
    simp [finMat, hl]
  have h2 : decide (2 ≤ (finMat n X).ncols) = true := decide_eq_true hn
  rw [h1, h2, if_pos rfl, if_pos rfl]
  rcases hk with rfl | rfl
  · have e : List.zipWith areaPrev (finMat n X).rows (finMat n Y).rows =
        finVec (List.zipWith (pieceSum rect) X Y) := hz fun x y h => areaPrev_fin h
    simp only [e, pure_eq_ok, ok_bind, hauc, Bool.not_false, if_true]
    rfl
  · have e : List.zipWith trapz (finMat n X).rows (finMat n Y).rows =
        finVec (List.zipWith (pieceSum trap) X Y) := hz fun x y h => trapz_fin h
    simp only [e, pure_eq_ok, ok_bind, hauc, Bool.not_false, if_true]
    rfl

/-- One curve as a table. -/
def curve (xs : List (Flt K)) : Mat K := ⟨xs.length, [xs]⟩

theorem area_curve {xs ys : List K} (h2 : 2 ≤ xs.length) (hl : xs.length = ys.length) {kind : Kind}
    (hk : kind = .previous ∨ kind = .linear) :
    area (curve (finVec xs)) (curve (finVec ys)) kind = .ok [.fin (pieceSum (pieceOf kind) xs ys)] := by
  have := C61_area (n := xs.length) (X := [xs]) (Y := [ys]) h2 (by simp) (by simp [hl]) rfl hk
  have e1 : curve (finVec xs) = finMat xs.length [xs] := by simp [curve, finMat, finVec]
  have e2 : curve (finVec ys) = finMat xs.length [ys] := by simp [curve, finMat, finVec, hl]
  rw [e1, e2, this]
  rfl

theorem pieceSum_split (I : K → K → K → K → K) {xs ys : List K} (hl : xs.length = ys.length) (a y : K)
    (xs' ys' : List K) : pieceSum I (xs ++ a :: xs') (ys ++ y :: ys') =
      pieceSum I (xs ++ [a]) (ys ++ [y]) + pieceSum I (a :: xs') (y :: ys') := by
  induction xs generalizing ys with
  | nil =>
    rw [List.eq_nil_of_length_eq_zero hl.symm]
    simp [pieceSum]
  | cons b xs ih =>
    match ys, hl with
    | z :: ys, hl =>
      have hl' : xs.length = ys.length := by simpa using hl
      cases xs with
      | nil =>
        rw [List.eq_nil_of_length_eq_zero hl'.symm]
        simp [pieceSum]
      | cons c xs =>
        match ys, hl' with
        | w :: ys, hl' =>
          have := ih hl'
          simp only [List.cons_append, pieceSum] at this ⊢
          rw [this, add_assoc]

/-- C61: splitting a curve at one of its points splits the area. -/
theorem C61_split {xs ys xs' ys' : List K} {a y : K} (hl : xs.length = ys.length)
    (hl' : xs'.length = ys'.length) (h1 : xs ≠ []) (h2 : xs' ≠ []) {kind : Kind}
    (hk : kind = .previous ∨ kind = .linear) :
    ∃ s t : K, area (curve (finVec (xs ++ [a]))) (curve (finVec (ys ++ [y]))) kind = .ok [.fin s] ∧
      area (curve (finVec (a :: xs'))) (curve (finVec (y :: ys'))) kind = .ok [.fin t] ∧
      area (curve (finVec (xs ++ a :: xs'))) (curve (finVec (ys ++ y :: ys'))) kind = .ok [.fin (s + t)] := by
  have p1 := List.length_pos_iff.2 h1
  have p2 := List.length_pos_iff.2 h2
  refine ⟨_, _, area_curve (by simp; omega) (by simp [hl]) hk, area_curve (by simp; omega) (by simp [hl']) hk, ?_⟩
  rw [area_curve (by simp; omega) (by simp [hl, hl']) hk, pieceSum_split _ hl]

/-- The value `w` at `m` lies on the interpolated piece from `(a, y0)` to `(b, y1)`. -/
def OnPiece : Kind → (a m b y0 w y1 : K) → Prop
  | .previous, _, _, _, y0, w, _ => w = y0
  | _, a, m, b, y0, w, y1 => (w - y0) * (b - a) = (y1 - y0) * (m - a)

/-- C61: inserting a point of the interpolated curve does not change the area. -/
theorem C61_insert {xs ys xs' ys' : List K} {a m b y0 w y1 : K} (hl : xs.length = ys.length)
    (hl' : xs'.length = ys'.length) {kind : Kind} (hk : kind = .previous ∨ kind = .linear)
    (hm : OnPiece kind a m b y0 w y1) :
    area (curve (finVec (xs ++ a :: m :: b :: xs'))) (curve (finVec (ys ++ y0 :: w :: y1 :: ys'))) kind =
      area (curve (finVec (xs ++ a :: b :: xs'))) (curve (finVec (ys ++ y0 :: y1 :: ys'))) kind := by
  rw [area_curve (by simp; omega) (by simp [hl, hl']) hk, area_curve (by simp; omega) (by simp [hl, hl']) hk,
    pieceSum_split _ hl, pieceSum_split _ hl a y0 (b :: xs')]
  have : pieceOf kind a m y0 w + pieceOf kind m b w y1 = pieceOf kind a b y0 y1 := by
    rcases hk with rfl | rfl
    · have hw : w = y0 := hm
      subst hw
      simp only [pieceOf, rect]; ring
    · have hw : (w - y0) * (b - a) = (y1 - y0) * (m - a) := hm
      simp only [pieceOf, trap]
      linear_combination hw / 2
  simp only [pieceSum]
  rw [← this]
  congr 3
  ring

/-- C61: the area is linear in the heights … -/
theorem C61_linear_in_y {xs ys zs : List K} (h2 : 2 ≤ xs.length) (hl : xs.length = ys.length)
    (hl' : xs.length = zs.length) (c : K) {kind : Kind} (hk : kind = .previous ∨ kind = .linear) :
    ∃ s t : K, area (curve (finVec xs)) (curve (finVec ys)) kind = .ok [.fin s] ∧
      area (curve (finVec xs)) (curve (finVec zs)) kind = .ok [.fin t] ∧
      area (curve (finVec xs)) (curve (finVec (List.zipWith (fun y z => c * y + z) ys zs))) kind =
        .ok [.fin (c * s + t)] := by
  refine ⟨_, _, area_curve h2 hl hk, area_curve h2 hl' hk, ?_⟩
  rw [area_curve h2 (by simp [← hl, ← hl']) hk]
  have key : ∀ xs ys zs : List K, xs.length = ys.length → xs.length = zs.length →
      pieceSum (pieceOf kind) xs (List.zipWith (fun y z => c * y + z) ys zs) =
        c * pieceSum (pieceOf kind) xs ys + pieceSum (pieceOf kind) xs zs := by
    intro xs
    induction xs with
    | nil => intro ys zs _ _; simp [pieceSum]
    | cons a xs ih =>
      intro ys zs h h'
      match xs, ys, zs, h, h' with
      | [], _, _, _, _ => simp [pieceSum]
      | b :: xs, y0 :: y1 :: ys, z0 :: z1 :: zs, h, h' =>
        have := ih (y1 :: ys) (z1 :: zs) (by simpa using h) (by simpa using h')
        simp only [List.zipWith_cons_cons, pieceSum] at this ⊢
        rw [this]
        rcases hk with rfl | rfl
        · simp only [pieceOf, rect]; ring
        · simp only [pieceOf, trap]; ring
  rw [key xs ys zs hl hl']

/-- … and lies between the smallest and the largest height times the width. -/
theorem C61_bounds {a : K} {xs ys : List K} {lo hi : K} (hs : (a :: xs).Pairwise (· ≤ ·)) (hne : xs ≠ [])
    (hl : xs.length + 1 = ys.length) (hlo : ∀ y ∈ ys, lo ≤ y) (hhi : ∀ y ∈ ys, y ≤ hi) {kind : Kind}
    (hk : kind = .previous ∨ kind = .linear) :
    ∃ s : K, area (curve (finVec (a :: xs))) (curve (finVec ys)) kind = .ok [.fin s] ∧
      lo * (xs.getLast hne - a) ≤ s ∧ s ≤ hi * (xs.getLast hne - a) := by
  have p := List.length_pos_iff.2 hne
  refine ⟨_, area_curve (by simp; omega) (by simpa using hl) hk, ?_⟩
  have piece : ∀ a b y0 y1 : K, a ≤ b → lo ≤ y0 → lo ≤ y1 → y0 ≤ hi → y1 ≤ hi →
      lo * (b - a) ≤ pieceOf kind a b y0 y1 ∧ pieceOf kind a b y0 y1 ≤ hi * (b - a) := by
    intro a b y0 y1 hab h1 h2 h3 h4
    have hw : 0 ≤ b - a := sub_nonneg.2 hab
    rcases hk with rfl | rfl
    · exact ⟨mul_le_mul_of_nonneg_right h1 hw, mul_le_mul_of_nonneg_right h3 hw⟩
    · simp only [pieceOf, trap]
      constructor
      · have := mul_le_mul_of_nonneg_right (show lo ≤ (y1 + y0) / 2 by linarith) hw
        linarith
      · have := mul_le_mul_of_nonneg_right (show (y1 + y0) / 2 ≤ hi by linarith) hw
        linarith
  induction xs generalizing a ys with
  | nil => exact absurd rfl hne
  | cons b xs ih =>
    match ys, hl with
    | y0 :: y1 :: ys, hl =>
      have hab : a ≤ b := (List.pairwise_cons.1 hs).1 b (by simp)
      obtain ⟨h1, h2⟩ := piece a b y0 y1 hab (hlo _ (by simp)) (hlo _ (by simp)) (hhi _ (by simp)) (hhi _ (by simp))
      cases xs with
      | nil =>
        match ys, hl with
        | [], _ =>
          simp only [pieceSum, add_zero, List.getLast_singleton]
          exact ⟨h1, h2⟩
      | cons c xs =>
        have := ih (a := b) (ys := y1 :: ys) (List.pairwise_cons.1 hs).2 (by simp) (by simpa using hl)
          (fun y hy => hlo y (by simp only [List.mem_cons] at hy ⊢; tauto))
          (fun y hy => hhi y (by simp only [List.mem_cons] at hy ⊢; tauto)) (by simp)
        rw [List.getLast_cons_cons]
        rw [pieceSum]
        constructor
        · linarith [this.1, mul_sub lo ((c :: xs).getLast (by simp)) b, mul_sub lo b a,
            mul_sub lo ((c :: xs).getLast (by simp)) a]
        · linarith [this.2, mul_sub hi ((c :: xs).getLast (by simp)) b, mul_sub hi b a,
            mul_sub hi ((c :: xs).getLast (by simp)) a]

/-! ## Rejections and infinite heights -/

/-- C61: NaN anywhere, fewer than two columns or different shapes raise AssertionError. -/
theorem C61_reject {X Y : Mat K} (kind : Kind)
    (h : X.ncols < 2 ∨ (∃ r ∈ X.rows, ¬ NoNaN r) ∨ (∃ r ∈ Y.rows, ¬ NoNaN r) ∨ Y.ncols ≠ X.ncols ∨
      Y.rows.length ≠ X.rows.length) :
    area X Y kind = .error .assertion := by
  unfold area
  simp only [pyAssert_bind]
  by_cases h1 : decide (2 ≤ X.ncols) = true
  swap
  · rw [if_neg h1]
  rw [if_pos h1]
  by_cases h2 : (!(X.rows.any fun r => r.any fun v => v.isNaN)) = true
  swap
  · rw [if_neg h2]
  rw [if_pos h2]
  by_cases h3 : (decide (Y.rows.length = X.rows.length) && decide (Y.ncols = X.ncols)) = true
  swap
  · rw [if_neg h3]
  rw [if_pos h3]
  by_cases h4 : (!(Y.rows.any fun r => r.any fun v => v.isNaN)) = true
  swap
  · rw [if_neg h4]
  exfalso
  have hr : ∀ Z : Mat K, (!(Z.rows.any fun r => r.any fun v => v.isNaN)) = true → ∀ r ∈ Z.rows, NoNaN r := by
    intro Z hZ r hr
    rw [← noNaN_any', Bool.not_eq_true']
    rw [Bool.not_eq_true', List.any_eq_false] at hZ
    have := hZ r hr
    rwa [Bool.not_eq_true] at this
  rw [decide_eq_true_eq] at h1
  rw [Bool.and_eq_true, decide_eq_true_eq, decide_eq_true_eq] at h3
  rcases h with h | ⟨r, h5, h6⟩ | ⟨r, h5, h6⟩ | h | h
  · omega
  · exact h6 (hr X h2 r h5)
  · exact h6 (hr Y h4 r h5)
  · exact h h3.2
  · exact h h3.1

/-- C61: for well-formed curves every other kind raises NotImplementedError. -/
theorem C61_kind {n : Nat} {X Y : List (List K)} (hn : 2 ≤ n) (hl : X.length = Y.length) {kind : Kind}
    (hk : kind = .next ∨ kind = .other) :
    area (finMat n X) (finMat n Y) kind = .error .notImplemented := by
  unfold area
  simp only [pyAssert_bind, finMat_noNaN, Bool.not_false, if_true]
  have h1 : (decide ((finMat n Y).rows.length = (finMat n X).rows.length) &&
      decide ((finMat n Y).ncols = (finMat n X).ncols)) = true := by
    simp [finMat, hl]
  have h2 : decide (2 ≤ (finMat n X).ncols) = true := decide_eq_true hn
  rw [h1, h2, if_pos rfl, if_pos rfl]
  rcases hk with rfl | rfl <;> rfl

theorem fin_zero_add' (v : Flt K) : (Flt.fin 0).add v = v := by
  cases v <;> simp [Flt.add]

theorem foldl_skip (l l' : List (Flt K)) :
    Flt.sum (l ++ Flt.fin 0 :: l') = Flt.sum (l ++ l') := by
  unfold Flt.sum
  rw [List.foldl_append, List.foldl_append, List.foldl_cons]
  congr 1
  generalize List.foldl Flt.add (Flt.fin 0) l = z
  cases z <;> simp [Flt.add]

theorem diff_append_cons (xs : List (Flt K)) (a : Flt K) (xs' : List (Flt K)) :
    diff (xs ++ a :: xs') = diff (xs ++ [a]) ++ diff (a :: xs') := by
  induction xs with
  | nil => rfl
  | cons b xs ih =>
    cases xs with
    | nil => cases xs' <;> rfl
    | cons c xs =>
      simp only [List.cons_append] at ih ⊢
      rw [diff_cons_cons, diff_cons_cons, ih]
      rfl

theorem diff_length (l : List (Flt K)) : (diff l).length = l.length - 1 := by
  unfold diff
  rw [List.length_zipWith, List.length_tail]; omega

/-- C61: with kind `'previous'`, a piece of zero width counts nothing, whatever its height — even an
infinite one. -/
theorem C61_zero_width {xs ys xs' ys' : List (Flt K)} {a : K} {y0 y1 : Flt K}
    (hl : xs.length = ys.length) :
    areaPrev (xs ++ .fin a :: .fin a :: xs') (ys ++ y0 :: y1 :: ys') =
      areaPrev (xs ++ .fin a :: xs') (ys ++ y1 :: ys') := by
  unfold areaPrev nansum
  have e1 : (ys ++ y0 :: y1 :: ys').dropLast = ys ++ y0 :: (y1 :: ys').dropLast := by
    rw [List.dropLast_append_of_ne_nil (by simp), List.dropLast_cons_cons]
  have e2 : (ys ++ y1 :: ys').dropLast = ys ++ (y1 :: ys').dropLast :=
    List.dropLast_append_of_ne_nil (by simp)
  rw [e1, e2, diff_append_cons xs (.fin a) (.fin a :: xs'), diff_append_cons xs (.fin a) xs', diff_cons_cons]
  have hlen : ys.length = (diff (xs ++ [Flt.fin a])).length := by
    rw [diff_length, ← hl]; simp
  rw [List.zipWith_append hlen, List.zipWith_append hlen, List.zipWith_cons_cons, List.map_append,
    List.map_append, List.map_cons]
  have hz : (if (y0.mul ((Flt.fin a).sub (.fin a))).isNaN then Flt.fin 0 else y0.mul ((Flt.fin a).sub (.fin a))) =
      Flt.fin 0 := by
    have : (Flt.fin a).sub (.fin a) = Flt.fin (0 : K) := by simp [Flt.sub, Flt.neg]
    rw [this]
    cases y0 <;> simp [Flt.mul, Flt.isNaN, Flt.signInf]
  rw [hz, foldl_skip]

end

/-! ## The area is an integral -/

section
open MeasureTheory Set intervalIntegral

theorem integral_pieces (I : ℝ → ℝ → ℝ → ℝ → ℝ) (g : ℝ → ℝ → ℝ → ℝ → ℝ → ℝ) (f : ℝ → ℝ)
    (hI : ∀ a b y0 y1, a ≤ b → IntervalIntegrable (g a b y0 y1) volume a b ∧
      ∫ v in a..b, g a b y0 y1 v = I a b y0 y1)
    {xs : List ℝ} (hne : xs ≠ []) {ys : List ℝ} (hl : xs.length = ys.length) (hs : xs.Pairwise (· ≤ ·))
    (hf : ∀ (i : Nat) (a b y0 y1 : ℝ), xs[i]? = some a → xs[i + 1]? = some b → ys[i]? = some y0 →
      ys[i + 1]? = some y1 → EqOn f (g a b y0 y1) (Ioo a b)) :
    IntervalIntegrable f volume (xs.head hne) (xs.getLast hne) ∧
      ∫ v in (xs.head hne)..(xs.getLast hne), f v = pieceSum I xs ys := by
  induction xs generalizing ys with
  | nil => exact absurd rfl hne
  | cons a xs ih =>
    match xs, ys, hl with
    | [], [y0], _ => simp [pieceSum]
    | b :: xs, y0 :: y1 :: ys, hl =>
      have hab : a ≤ b := (List.pairwise_cons.1 hs).1 b (by simp)
      obtain ⟨i1, i2⟩ := ih (ys := y1 :: ys) (by simp) (by simpa using hl) (List.pairwise_cons.1 hs).2
        (fun i a b y0 y1 h1 h2 h3 h4 => hf (i + 1) a b y0 y1 (by simpa using h1) (by simpa using h2)
          (by simpa using h3) (by simpa using h4))
      have heq := hf 0 a b y0 y1 rfl rfl rfl rfl
      obtain ⟨j1, j2⟩ := hI a b y0 y1 hab
      have k1 : IntervalIntegrable f volume a b :=
        (intervalIntegrable_congr_uIoo (uIoo_of_le hab ▸ heq)).2 j1
      rw [List.head_cons] at i1 i2 ⊢
      rw [List.getLast_cons_cons]
      refine ⟨k1.trans i1, ?_⟩
      rw [← integral_add_adjacent_intervals k1 i1, i2, integral_congr_Ioo_of_le hab heq, j2]
      rfl

/-- C61: the area with kind `'previous'` is the integral of the function that `interp1d` evaluates. -/
theorem C61_integral_previous {xs ys : List ℝ} (hne : xs ≠ []) (h2 : 2 ≤ xs.length)
    (hl : xs.length = ys.length) (hs : xs.Pairwise (· ≤ ·)) (f : ℝ → ℝ)
    (other : List (Flt ℝ) → List (Flt ℝ) → List (Flt ℝ) → Py (List (Flt ℝ)))
    (hf : ∀ v, xs.head hne ≤ v → v < xs.getLast hne →
      interp1d other [.fin v] (finVec xs) (finVec ys) .previous = .ok [.fin (f v)]) :
    area (curve (finVec xs)) (curve (finVec ys)) .previous =
      .ok [.fin (∫ v in (xs.head hne)..(xs.getLast hne), f v)] := by
  rw [area_curve h2 hl (Or.inl rfl)]
  have h := (integral_pieces rect (fun _ _ y0 _ _ => y0) f (fun a b y0 y1 hab => by
    refine ⟨intervalIntegrable_const, ?_⟩
    rw [intervalIntegral.integral_const, smul_eq_mul, rect, mul_comm]) hne hl hs ?_).2
  · rw [h]; rfl
  · intro i a b y0 y1 ha hb hy0 hy1 v hv
    obtain ⟨hi, ea⟩ := List.getElem?_eq_some_iff.1 ha
    obtain ⟨hi1, eb⟩ := List.getElem?_eq_some_iff.1 hb
    have hhead : xs.head hne ≤ a := by
      rw [List.head_eq_getElem, ← ea]
      rcases Nat.eq_zero_or_pos i with h | h
      · subst h; exact le_rfl
      · exact List.pairwise_iff_getElem.1 hs 0 i (by omega) hi h
    have hlast : b ≤ xs.getLast hne := by
      rw [List.getLast_eq_getElem, ← eb]
      rcases Nat.lt_or_ge (i + 1) (xs.length - 1) with h | h
      · exact List.pairwise_iff_getElem.1 hs _ _ hi1 (by omega) h
      · have e : i + 1 = xs.length - 1 := by omega
        simp only [e]; exact le_rfl
    have h1 := hf v (hhead.trans hv.1.le) (lt_of_lt_of_le hv.2 hlast)
    have hcov : Covered (finVec xs) [Flt.fin v] := by
      intro w hw
      rw [List.mem_singleton] at hw
      subst hw
      refine ⟨by simp, .fin a, List.mem_map_of_mem (List.mem_of_getElem? ha), ?_⟩
      exact Flt.fin_le_fin.2 hv.1.le
    obtain ⟨out, h3, h4⟩ := C60_previous other (xp := finVec xs) (yp := finVec ys) (sortable_finVec hs) (by simpa [finVec] using hl)
      (by simpa [finVec] using h2) [.fin v] hcov
    rw [h1] at h3
    cases h3
    obtain ⟨k, x, g1, g2, g3, g4⟩ := (List.forall₂_cons.1 h4).1
    have hki : k = i := by
      rcases Nat.lt_trichotomy k i with h | h | h
      · exfalso
        refine g4 i (.fin a) h ?_ (Flt.fin_le_fin.2 hv.1.le)
        rw [finVec_getElem?, ha]; rfl
      · exact h
      · exfalso
        rw [finVec_getElem?] at g1
        obtain ⟨x', hx', rfl⟩ := Option.map_eq_some_iff.1 g1
        obtain ⟨hk, ek⟩ := List.getElem?_eq_some_iff.1 hx'
        have : b ≤ x' := by
          rw [← eb, ← ek]
          rcases Nat.lt_or_ge (i + 1) k with h' | h'
          · exact List.pairwise_iff_getElem.1 hs _ _ hi1 hk h'
          · have e : i + 1 = k := by omega
            subst e; exact le_rfl
        exact absurd (this.trans (Flt.fin_le_fin.1 g3)) (not_le.2 hv.2)
    subst hki
    rw [finVec_getElem?, hy0] at g2
    simpa using g2.symm

theorem affine_integral (a b y0 y1 : ℝ) (hab : a ≤ b) :
    IntervalIntegrable (fun v => y0 + (y1 - y0) / (b - a) * (v - a)) volume a b ∧
      ∫ v in a..b, (y0 + (y1 - y0) / (b - a) * (v - a)) = trap a b y0 y1 := by
  have hc : Continuous fun v : ℝ => y0 + (y1 - y0) / (b - a) * (v - a) := by fun_prop
  refine ⟨hc.intervalIntegrable a b, ?_⟩
  rw [intervalIntegral.integral_add (by simp) ((by fun_prop : Continuous fun v : ℝ =>
    (y1 - y0) / (b - a) * (v - a)).intervalIntegrable a b), intervalIntegral.integral_const_mul,
    intervalIntegral.integral_sub (by simp) (by simp), integral_id, intervalIntegral.integral_const,
    intervalIntegral.integral_const]
  simp only [smul_eq_mul, trap]
  rcases hab.eq_or_lt with rfl | h
  · simp
  · have : b - a ≠ 0 := sub_ne_zero.2 h.ne'
    field_simp
    ring

/-- C61: the area with kind `'linear'` is the integral of the function that `interp1d` evaluates. -/
theorem C61_integral_linear {xs ys : List ℝ} (hne : xs ≠ []) (h2 : 2 ≤ xs.length)
    (hl : xs.length = ys.length) (hs : xs.Pairwise (· ≤ ·)) (f : ℝ → ℝ)
    (other : List (Flt ℝ) → List (Flt ℝ) → List (Flt ℝ) → Py (List (Flt ℝ)))
    (hf : ∀ v, xs.head hne ≤ v → v ≤ xs.getLast hne →
      interp1d other [.fin v] (finVec xs) (finVec ys) .linear = .ok [.fin (f v)]) :
    area (curve (finVec xs)) (curve (finVec ys)) .linear =
      .ok [.fin (∫ v in (xs.head hne)..(xs.getLast hne), f v)] := by
  rw [area_curve h2 hl (Or.inr rfl)]
  have h := (integral_pieces trap (fun a b y0 y1 v => y0 + (y1 - y0) / (b - a) * (v - a)) f
    (fun a b y0 y1 hab => affine_integral a b y0 y1 hab) hne hl hs ?_).2
  · rw [h]; rfl
  · intro i a b y0 y1 ha hb hy0 hy1 v hv
    obtain ⟨hi, ea⟩ := List.getElem?_eq_some_iff.1 ha
    obtain ⟨hi1, eb⟩ := List.getElem?_eq_some_iff.1 hb
    have hhead : xs.head hne ≤ a := by
      rw [List.head_eq_getElem, ← ea]
      rcases Nat.eq_zero_or_pos i with h | h
      · subst h; exact le_rfl
      · exact List.pairwise_iff_getElem.1 hs 0 i (by omega) hi h
    have hlast : b ≤ xs.getLast hne := by
      rw [List.getLast_eq_getElem, ← eb]
      rcases Nat.lt_or_ge (i + 1) (xs.length - 1) with h | h
      · exact List.pairwise_iff_getElem.1 hs _ _ hi1 (by omega) h
      · have e : i + 1 = xs.length - 1 := by omega
        simp only [e]; exact le_rfl
    have h1 := hf v (hhead.trans hv.1.le) (hv.2.le.trans hlast)
    obtain ⟨out, h3, h4⟩ := C60_linear other hs hl h2 [v] (by
      intro w hw
      rw [List.mem_singleton] at hw
      subst hw
      exact ⟨⟨a, List.mem_of_getElem? ha, hv.1.le⟩, b, List.mem_of_getElem? hb, hv.2.le⟩)
    have h1' : interp1d other (finVec [v]) (finVec xs) (finVec ys) .linear = .ok (finVec [f v]) := h1
    rw [h1'] at h3
    have h5 : out = [f v] := by
      have h6 : finVec [f v] = finVec out := Except.ok.inj h3
      unfold finVec at h6
      exact (List.map_injective_iff.2 (fun x y h => Flt.fin.inj h) h6).symm
    subst h5
    have hon := (List.forall₂_cons.1 h4).1
    have hne0 : b - a ≠ 0 := sub_ne_zero.2 (hv.1.trans hv.2).ne'
    refine onLine_unique hs hon (Or.inr ⟨i, a, b, y0, y1, ha, hb, hy0, hy1, hv.1.le, hv.2, ?_⟩)
    field_simp
    ring

end

example : area (finMat 3 [[0, 1, (2 : ℚ)], [0, 0, 2]]) (finMat 3 [[1, 2, 3], [5, 1, 2]]) .previous =
    .ok (finVec [3, 2]) := by decide +kernel
example : area (finMat 3 [[0, 1, (2 : ℚ)], [0, 0, 2]]) (finMat 3 [[1, 2, 3], [5, 1, 2]]) .linear =
    .ok (finVec [4, 3]) := by decide +kernel
example : area (curve (finVec [0, 0, (1 : ℚ)])) (curve [.ninf, .fin 1, .fin 0]) .previous =
    .ok [.fin 1] := by decide +kernel
/-- The hypotheses of the integral theorems can be met: the curve 0 on [0,1), then 1. -/
example : ∃ f : ℝ → ℝ, ∀ v, ([0, 1, 2] : List ℝ).head (by simp) ≤ v → v < ([0, 1, 2] : List ℝ).getLast (by simp) →
    interp1d (fun _ _ _ => .ok []) [.fin v] (finVec [0, 1, 2]) (finVec [0, 1, 5]) .previous =
      .ok [.fin (f v)] := by
  have : ∀ v : ℝ, ∃ w : ℝ, 0 ≤ v → interp1d (fun _ _ _ => .ok []) [.fin v] (finVec [0, 1, 2])
      (finVec [0, 1, 5]) .previous = .ok [.fin w] := by
    intro v
    by_cases hv : 0 ≤ v
    · obtain ⟨out, h1, h2⟩ := C60_previous (fun _ _ _ => .ok []) (xp := finVec [0, 1, (2 : ℝ)])
        (yp := finVec [0, 1, 5]) (sortable_finVec (by norm_num)) rfl (by simp [finVec]) [.fin v] (by
          intro w hw
          rw [List.mem_singleton] at hw
          subst hw
          exact ⟨by simp, .fin 0, by simp [finVec], Flt.fin_le_fin.2 hv⟩)
      cases h2 with
      | cons h3 h4 =>
        cases h4
        obtain ⟨i, x, -, h5, -⟩ := h3
        rw [finVec_getElem?] at h5
        obtain ⟨w, -, rfl⟩ := Option.map_eq_some_iff.1 h5
        exact ⟨w, fun _ => h1⟩
    · exact ⟨0, fun h => absurd h hv⟩
  choose f hf using this
  exact ⟨f, fun v hv _ => hf v hv⟩

end Mlp.Props
