import Verif.Props.RegrNoiseRound

/-! # Property C122: the benchmark of regressors in floating point arithmetic -/

namespace Mlp.Props
open Mlp.Util Mlp.Frame Mlp.Spec Mlp.Regr Mlp.LossR Mlp.PaperR Mlp.PerfR Mlp.Round Mlp.Lemmas Mlp.Classif Mlp.Paper

variable {L : Lib ℝ} {u : ℝ}

/-- The standard losses with what they compute in floating point arithmetic. -/
noncomputable def stdPointR (L : Lib ℝ) : List (Str × (ℝ → ℝ → ℝ → ℝ)) :=
  [("NLL".toList, fun a m s => logAt L a m s), ("MSE".toList, fun a m _ => squareAt L a m), ("MAE".toList, fun a m _ => |L.rnd (a - m)|)]

theorem stdRegrR_points (L : Lib ℝ) {y mu std : Arr} {n : Nat} (h : RegrInput y mu std n) (hy : y.Ok) (hm : mu.Ok) (hs : std.Ok) :
    List.Forall₂ (fun (m : Str × Regr.Loss) (f : Str × (ℝ → ℝ → ℝ → ℝ)) => m.1 = f.1 ∧
      ∃ l, m.2 y mu std = .ok l ∧ PerPoint f.2 y mu std l) (stdRegrLossR L) (stdPointR L) := by
  unfold stdRegrLossR stdPointR
  exact .cons ⟨rfl, logR_value L h hy hm hs⟩ (.cons ⟨rfl, squareR_value L h hy hm hs⟩ (.cons ⟨rfl, absR_value L h hy hm hs⟩ .nil))

theorem stdRegrR_nodup (L : Lib ℝ) : ((stdRegrLossR L).map fun m => m.1).Nodup := by
  unfold stdRegrLossR
  simp only [List.map_cons, List.map_nil]
  decide

/-- **C122, loss table.**  For targets and predictions that are numbers, with positive standard deviations, `loss_table` with the rounded standard losses succeeds.  Its columns contain
for each method and sample the rounded losses. -/
theorem C122_loss_table {t : GaussTable} (ht : GoodGauss t) (hM : t.methods.Nodup) (hc : (t.cols.map (·.1)).Nodup)
    (hlen : ∀ c ∈ t.cols, c.2.length = t.nrows) {y : Arr} (hy : y.Ok) (hys : y.shape = [t.nrows])
    (hnum : ∀ v ∈ y.data, ∃ x : ℝ, v = .fin x) (hnum' : ∀ c ∈ t.cols, ∀ v ∈ c.2, ∃ x : ℝ, v = .fin x)
    (hpos : ∀ c ∈ t.cols, c.1.2 = "std".toList → ∀ v ∈ c.2, Flt.fin 0 < v) :
    ∃ tbl, Regr.lossTable t y (stdRegrLossR L) = .ok tbl ∧ ∀ method ∈ t.methods, ∀ mu std,
      HasCol t.cols (method, "mu".toList) mu → HasCol t.cols (method, "std".toList) std → ∀ f ∈ stdPointR L,
      ∃ l, HasLoss tbl f.1 method l ∧ PerPoint f.2 y ⟨[t.nrows], mu⟩ ⟨[t.nrows], std⟩ l := by
  have hmem : ∀ {k v}, HasCol t.cols k v → (k, v) ∈ t.cols := by
    rintro k v ⟨a, b, e, -, -⟩; rw [e]; simp
  have hin : ∀ method mu std, HasCol t.cols (method, "mu".toList) mu → HasCol t.cols (method, "std".toList) std →
      RegrInput y ⟨[t.nrows], mu⟩ ⟨[t.nrows], std⟩ t.nrows := by
    intro method mu std h1 h2
    refine ⟨ht.rows, ⟨hys, rfl, rfl⟩, ?_, fun v hv => hpos _ (hmem h2) rfl v hv⟩
    rintro v (hv | hv | hv)
    · exact hnum v hv
    · exact hnum' _ (hmem h1) v hv
    · exact hnum' _ (hmem h2) v hv
  have hok : ∀ {k v}, HasCol t.cols k v → (⟨[t.nrows], v⟩ : Arr).Ok := by
    intro k v h
    have := hlen _ (hmem h)
    simpa [Arr.Ok] using this
  have hylen : y.data.length = t.nrows := by
    have := hy
    unfold Arr.Ok at this
    rw [hys] at this
    simpa using this
  obtain ⟨tbl, htbl⟩ := C89_success ht hys (metrics := stdRegrLossR L) fun m hm method hmeth mu std h1 h2 => by
    obtain ⟨f, -, -, l, hL, hp⟩ := forall₂_mem (stdRegrR_points L (hin method mu std h1 h2) hy (hok h1) (hok h2)) hm
    exact ⟨l, hL, by rw [hp.1, hylen]⟩
  refine ⟨tbl, htbl, fun method hmeth mu std h1 h2 f hf => ?_⟩
  obtain ⟨-, -, -, -, -, -, -, hcol⟩ := C89_columns (stdRegrR_nodup L) hM hc htbl
  obtain ⟨m, hz, e, l, hL, hp⟩ := forall₂_mem (stdRegrR_points L (hin method mu std h1 h2) hy (hok h1) (hok h2)).flip hf
  have hm : m ∈ stdRegrLossR L := (List.of_mem_zip hz).2
  obtain ⟨mu', std', l', g1, g2, g3, -, g4⟩ := hcol m hm method hmeth
  rw [hasCol_unique g1 h1, hasCol_unique g2 h2, hL, Except.ok.injEq] at g3
  subst g3
  exact ⟨l, by rw [← e]; exact g4, hp⟩

/-- The limits given for the standard losses contain all values they can have: none for `NLL`, `[lo, inf)` with `lo` at most 0 for `MSE` and `MAE`, where a finite `lo` is on a grid
of floats. -/
def CoversRegr (rnd : ℝ → ℝ) (n : Nat) (limits : List (Str × (Flt ℝ × Flt ℝ))) : Prop :=
  ∀ metric ∈ ["NLL".toList, "MSE".toList, "MAE".toList], ∃ lower, LimitsOf limits metric lower .pinf ∧ GridLimit rnd n lower ∧
    (lower = .ninf ∨ metric ≠ "NLL".toList ∧ lower ≤ .fin 0)

/-- The losses of a method as the program computes them. -/
noncomputable def pointLosses (f : ℝ → ℝ → ℝ → ℝ) (ys mus sds : List ℝ) : List ℝ :=
  List.zipWith (fun (g : ℝ → ℝ) s => g s) (List.zipWith (fun y m => f y m) ys mus) sds

/-- **C122, benchmark.**  In double precision `just_benchmark` for regressors never fails: data of the right shapes, targets that are numbers, methods that predict numbers with standard deviations that are
positive after flooring, limits that cover the losses, and any outcome of the bootstrap draws.  The table has a row for each method; its estimates are the computed means of the computed losses, not negative for the squared and the absolute error; error bars are not
negative, p-values are in [0, 1] and missing for the reference. -/
theorem C122_benchmark {D : Type} (hL : GoodLib L) (hb : L.rnd = binary64) (d : Str) {xTrain : Features D} {yTrain : Arr} {xTest : Features D}
    {ys : List ℝ} (hys : ys.length ≤ 1000000000) {methods : List (Str × Regr.Estimator D)} {refMethod : Str} {c : ℝ} {pairwise : Bool}
    {methodEB : EBMethod} {draws : Str → Str → Draws}
    (hn : (methods.map fun m => m.1).Nodup) (href : refMethod ∈ (methods.map fun m => m.1))
    (hg : GoodRegr xTrain yTrain xTest (.fin c) ys.length) (pred : Str → List ℝ × List ℝ)
    (hp : ∀ m ∈ methods, PredictsGauss xTrain yTrain xTest m.2 (realArr (pred m.1).1) (realArr (pred m.1).2) ∧
      (pred m.1).1.length = ys.length ∧ (pred m.1).2.length = ys.length ∧ ∀ s ∈ (pred m.1).2, 0 < max c s)
    (hm : methodEB ≠ .other) {limits : List (Str × (Flt ℝ × Flt ℝ))} (hlim : CoversRegr L.rnd ys.length limits)
    (hd : methodEB = .boot → ∀ metric method, ValidDraws ys.length 1000 (draws metric method).eb ∧
      ValidDraws ys.length 1000 (draws metric method).test) :
    ∃ full, regrBenchmarkR L d d xTrain yTrain xTest (realArr ys) methods (stdRegrLossR L) refMethod (.fin c) pairwise methodEB
        limits draws = .ok full ∧
      (full.methods.Perm (methods.map fun m => m.1) ∧ full.methods.Pairwise (· ≤ ·)) ∧
      full.metrics = ["MAE".toList, "MSE".toList, "NLL".toList] ∧
      List.Forall₂ (fun metric col => List.Forall₂ (fun method cell =>
        (∀ f, (metric, f) ∈ stdPointR L → cell.1 = Flt.fin (meanR L (pointLosses f ys (pred method).1 ((pred method).2.map fun s => max c s)))) ∧
        (metric ≠ "NLL".toList → Flt.fin 0 ≤ cell.1) ∧
        (method = refMethod ∧ pairwise = true → cell.2.1 = .nan) ∧
        (¬(method = refMethod ∧ pairwise = true) → cell.2.1 ≠ .nan ∧ .fin 0 ≤ cell.2.1) ∧
        (method = refMethod → cell.2.2 = .nan) ∧
        (method ≠ refMethod → ∃ p : ℝ, cell.2.2 = .fin p ∧ 0 ≤ p ∧ p ≤ 1)) full.methods col)
        full.metrics full.columns := by
  obtain ⟨t, ht⟩ := C88_success (methods := methods) hg fun m hm' => by
    obtain ⟨a, b, c', -⟩ := hp m hm'
    exact ⟨_, _, a, by simp [realArr, b], by simp [realArr, c'], by simp [realArr, Arr.Ok], by simp [realArr, Arr.Ok]⟩
  obtain ⟨hg', hmom, hperm, hsorted, hnod, hcols, hmeth⟩ := C88_table hn ht
  have hrows : t.nrows = ys.length := by
    obtain ⟨_, _, -, -, a⟩ := hg.shapes
    obtain ⟨_, _, -, -, b⟩ := hg'.shapes
    rw [a, List.cons.injEq] at b
    exact b.1.symm
  have hM : t.methods.Nodup := hperm.nodup_iff.2 hn
  have hcol : ∀ m ∈ methods, HasCol t.cols (m.1, "mu".toList) (finVec (pred m.1).1) ∧
      HasCol t.cols (m.1, "std".toList) (finVec ((pred m.1).2.map fun s => max c s)) := by
    intro m hm'
    obtain ⟨mu, std, sd, a1, -, -, a4, a5, a6⟩ := hmeth m hm'
    obtain ⟨rfl, rfl⟩ := predictsGauss_unique (hp m hm').1 a1
    rw [floored_eq a6] at a5
    exact ⟨a4, a5⟩
  have hvals : ∀ k ∈ t.cols, ∃ m ∈ methods, k.1 = (m.1, "mu".toList) ∧ k.2 = finVec (pred m.1).1 ∨
      ∃ m ∈ methods, k.1 = (m.1, "std".toList) ∧ k.2 = finVec ((pred m.1).2.map fun s => max c s) := by
    intro k hk
    obtain ⟨a, b, -⟩ := hcols k hk
    obtain ⟨m, hm', e⟩ := List.mem_map.1 (hperm.mem_iff.1 a)
    rw [hmom] at b
    have hk' : HasCol t.cols k.1 k.2 := hasCol_of_mem hnod (by simpa using hk)
    simp only [List.mem_cons, List.not_mem_nil, or_false] at b
    rcases b with b | b
    · have e' : k.1 = (m.1, "mu".toList) := Prod.ext e.symm b
      rw [e'] at hk'
      exact ⟨m, hm', Or.inl ⟨e', hasCol_unique hk' (hcol m hm').1⟩⟩
    · have e' : k.1 = (m.1, "std".toList) := Prod.ext e.symm b
      rw [e'] at hk'
      exact ⟨m, hm', Or.inr ⟨m, hm', e', hasCol_unique hk' (hcol m hm').2⟩⟩
  have hgood : GoodGauss t := ⟨by rw [hmom]; simp, by rw [hrows]; exact hg.pos, by
    intro e
    rw [← hperm.mem_iff, e] at href
    simp at href, by
    intro method hmeth'
    obtain ⟨m, hm', rfl⟩ := List.mem_map.1 (hperm.mem_iff.1 hmeth')
    exact ⟨⟨_, (hcol m hm').1⟩, ⟨_, (hcol m hm').2⟩⟩⟩
  have hlen : ∀ k ∈ t.cols, k.2.length = t.nrows := fun k hk => (hcols k hk).2.2
  obtain ⟨tbl, htbl, hper⟩ := C122_loss_table (L := L) hgood hM hnod hlen (y := realArr ys) (by simp [realArr, Arr.Ok])
    (by simp [realArr, hrows]) (by simp [realArr]) (by
      intro k hk v hv
      obtain ⟨m, -, ⟨-, e⟩ | ⟨m', -, -, e⟩⟩ := hvals k hk
      · rw [e] at hv; simp only [finVec, List.mem_map] at hv; obtain ⟨x, -, rfl⟩ := hv; exact ⟨x, rfl⟩
      · rw [e] at hv; simp only [finVec, List.mem_map] at hv; obtain ⟨x, -, rfl⟩ := hv; exact ⟨_, rfl⟩) (by
      intro k hk hk1 v hv
      obtain ⟨m, -, ⟨e1, -⟩ | ⟨m', hm', -, e⟩⟩ := hvals k hk
      · rw [e1] at hk1; exact absurd (show "mu".toList = "std".toList from hk1) (by decide)
      · rw [e] at hv; simp only [finVec, List.map_map, List.mem_map] at hv
        obtain ⟨x, hx, rfl⟩ := hv
        simpa using (hp m' hm').2.2.2 x hx)
  obtain ⟨e1, e2, e3, e4, -, -, -, -⟩ := C89_columns (stdRegrR_nodup L) hM hnod htbl
  have hmets : tbl.metrics = ["MAE".toList, "MSE".toList, "NLL".toList] := by
    refine List.Perm.eq_of_pairwise (le := fun a b : Str => a ≤ b) (fun a b _ _ h1 h2 => List.le_antisymm h1 h2) e3.2
      (by decide) (e3.1.trans ?_)
    unfold stdRegrLossR
    simp only [List.map_cons, List.map_nil]
    decide
  have hloss : ∀ m ∈ methods, ∀ f ∈ stdPointR L, HasLoss tbl f.1 m.1 (finVec (List.zipWith (fun (g : ℝ → ℝ) s => g s)
      (List.zipWith (fun y m => f.2 y m) ys (pred m.1).1) ((pred m.1).2.map fun s => max c s))) := by
    intro m hm' f hf
    obtain ⟨l, a, b⟩ := hper m.1 (hperm.mem_iff.2 (List.mem_map_of_mem hm')) _ _ (hcol m hm').1 (hcol m hm').2 f hf
    rw [hrows] at b
    rw [← perPoint_eq (hp m hm').2.1 (by rw [List.length_map]; exact (hp m hm').2.2.1) b]
    exact a
  have hlens : ∀ m ∈ methods, ∀ f : ℝ → ℝ → ℝ → ℝ, (List.zipWith (fun (g : ℝ → ℝ) s => g s)
      (List.zipWith (fun y m => f y m) ys (pred m.1).1) ((pred m.1).2.map fun s => max c s)).length = ys.length := by
    intro m hm' f
    simp [(hp m hm').2.1, (hp m hm').2.2.1]
  have hstd : ∀ metric ∈ tbl.metrics, ∃ f, (metric, f) ∈ stdPointR L := by
    rw [hmets]; simp [stdPointR]
  have hof : ∀ method ∈ tbl.methods, ∃ m ∈ methods, m.1 = method := by
    intro method hm'
    exact List.mem_map.1 ((e4.1.trans hperm).mem_iff.1 hm')
  have hnn : ∀ metric f, (metric, f) ∈ stdPointR L → metric ≠ "NLL".toList → ∀ a m s, 0 ≤ f a m s := by
    intro metric f hf hne a m s
    simp only [stdPointR, List.mem_cons, Prod.mk.injEq, List.not_mem_nil, or_false] at hf
    rcases hf with ⟨rfl, rfl⟩ | ⟨rfl, rfl⟩ | ⟨rfl, rfl⟩
    · exact absurd rfl hne
    · exact hL.rnd.nonneg (mul_self_nonneg _)
    · exact abs_nonneg _
  have hpl : ∀ metric f, (metric, f) ∈ stdPointR L → metric ≠ "NLL".toList → ∀ mus sds, ∀ x ∈ pointLosses f ys mus sds, 0 ≤ x := by
    intro metric f hf hne mus sds x hx
    obtain ⟨i, hi, rfl⟩ := List.getElem_of_mem hx
    simp only [pointLosses, List.getElem_zipWith]
    exact hnn metric f hf hne _ _ _
  have hmem3 : ∀ metric ∈ tbl.metrics, metric ∈ ["NLL".toList, "MSE".toList, "MAE".toList] := by
    rw [hmets]
    simp only [List.mem_cons, List.not_mem_nil, or_false]
    rintro metric (h | h | h) <;> simp [h]
  have hfin : ∀ metric ∈ tbl.metrics, ∃ lower upper, LimitsOf limits metric lower upper ∧ ValidLimits lower upper ∧
      GridLimit L.rnd tbl.nrows lower ∧ GridLimit L.rnd tbl.nrows upper ∧ ∀ method ∈ tbl.methods, ∃ xs : List ℝ,
        HasLoss tbl metric method (finVec xs) ∧ xs.length = tbl.nrows ∧ Within lower upper xs := by
    intro metric hmet
    obtain ⟨lower, g1, g2, g3⟩ := hlim metric (hmem3 metric hmet)
    obtain ⟨f, hf⟩ := hstd metric hmet
    have hl : lower ≤ .fin 0 := by
      rcases g3 with rfl | ⟨-, h⟩
      · exact Flt.ninf_le _
      · exact h
    refine ⟨lower, .pinf, g1, ⟨?_, by simp, hl.trans (Flt.le_pinf (by simp)), ?_, by simp⟩, by rw [e1, hrows]; exact g2, trivial, fun method hmeth' => ?_⟩
    · rintro rfl; exact absurd hl (by simp)
    · rintro rfl; exact absurd hl (by simp)
    · obtain ⟨m, hm', rfl⟩ := hof method hmeth'
      refine ⟨_, hloss m hm' (metric, f) hf, by rw [e1, hrows]; exact hlens m hm' f, fun x hx => ⟨?_, Flt.le_pinf (by simp)⟩⟩
      rcases g3 with rfl | ⟨hne, -⟩
      · exact Flt.ninf_le _
      · exact hl.trans (Flt.fin_le_fin.2 (hpl metric f hf hne _ _ x hx))
  have hr1 : 1 ≤ tbl.nrows := by rw [e1, hrows]; exact hg.pos
  have hnu : (tbl.nrows : ℝ) * (1 / 2 ^ 53) ≤ 1 / 1000000 := by
    rw [e1, hrows]
    have : (ys.length : ℝ) ≤ 1000000000 := by exact_mod_cast hys
    have h3 : (0 : ℝ) ≤ 1 / 2 ^ 53 := by positivity
    exact (mul_le_mul_of_nonneg_right this h3).trans (by norm_num)
  have hne : ys ≠ [] := by
    rintro rfl
    exact absurd hg.pos (by simp)
  obtain ⟨c0, c1⟩ := double_confidence
  -- the estimates
  have hest : ∀ metric ∈ tbl.metrics, ∀ method ∈ tbl.methods, ∀ cell : Flt ℝ × Flt ℝ × Flt ℝ,
      (∃ xs : List ℝ, HasLoss tbl metric method (finVec xs) ∧ cell.1 = .fin (meanR L xs)) →
      (∀ f, (metric, f) ∈ stdPointR L → cell.1 = Flt.fin (meanR L (pointLosses f ys (pred method).1 ((pred method).2.map fun s => max c s)))) ∧
      (metric ≠ "NLL".toList → Flt.fin 0 ≤ cell.1) := by
    rintro metric hmet method hmeth' cell ⟨xs, hx, e⟩
    obtain ⟨m, hm', rfl⟩ := hof method hmeth'
    have key : ∀ f, (metric, f) ∈ stdPointR L → cell.1 = Flt.fin (meanR L (pointLosses f ys (pred m.1).1 ((pred m.1).2.map fun s => max c s))) := by
      intro f hf
      rw [e]
      congr 2
      exact (List.map_injective_iff.2 (fun _ _ h => Flt.fin.inj h)) (hasLoss_unique hx (hloss m hm' (metric, f) hf))
    refine ⟨key, fun hN => ?_⟩
    obtain ⟨f, hf⟩ := hstd metric hmet
    rw [key f hf, Flt.fin_le_fin]
    refine C109_at_least hL ?_ (by intro k _; simp [hL.rnd.zero]) (hpl metric f hf hN _ _)
    intro e0
    have := hlens m hm' f
    rw [show List.zipWith (fun (g : ℝ → ℝ) s => g s) (List.zipWith (fun y m => f y m) ys (pred m.1).1) ((pred m.1).2.map fun s => max c s) = [] from e0] at this
    exact hne (List.length_eq_zero_iff.1 this.symm)
  have hconf : (Flt.fin (L.rnd (95 / 100)) : Flt ℝ) = .fin (binary64 (95 / 100)) := by rw [hb]
  have hbench : ∀ l, lossSummaryTableR L tbl refMethod pairwise (.fin (L.rnd (95 / 100))) methodEB limits draws = .ok l →
      regrBenchmarkR L d d xTrain yTrain xTest (realArr ys) methods (stdRegrLossR L) refMethod (.fin c) pairwise methodEB limits draws =
        .ok ⟨tbl.metrics, tbl.methods, l⟩ := by
    intro l hl
    unfold regrBenchmarkR
    rw [pyAssert_bind, if_pos (by simp), ht, ok_bind, htbl, ok_bind, hl]
    rfl
  cases pairwise with
  | true =>
    obtain ⟨l, hl, hl'⟩ := C108_table hL (by norm_num) (hb ▸ binary64_relError) (hb ▸ binary64_halves) (by norm_num) (tbl := tbl) (refMethod := refMethod) c0 c1 hm
      (limits := limits) (draws := draws)
      (by rw [e1, hrows]; exact fun h a b => (hd h a b).1) ((e4.1.trans hperm).mem_iff.2 href) hr1 hnu (by rw [hmets]; simp)
      fun metric hmetric => by
        obtain ⟨lo, up, a, b, -, -, c⟩ := hfin metric hmetric
        exact ⟨lo, up, a, b, c⟩
    refine ⟨_, hbench l (by rw [hconf]; exact hl), ⟨e4.1.trans hperm, e4.2⟩, hmets, ?_⟩
    refine forall₂_left_mem hl' fun metric row hmetric hrow => forall₂_left_mem hrow fun method cell hmethod hcell => ?_
    obtain ⟨f1, f2, f3⟩ := hcell
    obtain ⟨k1, k2⟩ := hest metric hmetric method hmethod cell f1
    refine ⟨k1, k2, fun h => by rw [f2 h.1], fun h => ?_, fun h => by rw [f2 h], fun h => (f3 h).2.2⟩
    have := f3 fun h' => h ⟨h', rfl⟩
    exact ⟨this.1, this.2.1⟩
  | false =>
    obtain ⟨l, hl, hl'⟩ := C109_table_grid hL (by norm_num) (hb ▸ binary64_relError) (hb ▸ binary64_halves) (by norm_num) (tbl := tbl) (refMethod := refMethod) c0 c1 hm
      (limits := limits) (draws := draws)
      (by rw [e1, hrows]; exact hd) ((e4.1.trans hperm).mem_iff.2 href) hr1 hnu (by rw [hmets]; simp) hfin
    refine ⟨_, hbench l (by rw [hconf]; exact hl), ⟨e4.1.trans hperm, e4.2⟩, hmets, ?_⟩
    refine forall₂_left_mem hl' fun metric row hmetric hrow => forall₂_left_mem hrow fun method cell hmethod hcell => ?_
    obtain ⟨f1, f2, f3, f4, f5⟩ := hcell
    obtain ⟨k1, k2⟩ := hest metric hmetric method hmethod cell f1
    exact ⟨k1, k2, fun h => by simp at h, fun _ => ⟨f2, f3⟩, f4, f5⟩

/-- The limits that `just_benchmark` uses if none are given. -/
theorem coversRegr_default (rnd : ℝ → ℝ) (n : Nat) : CoversRegr rnd n [] :=
  fun _ _ => ⟨.ninf, .default (by simp), trivial, .inl rfl⟩

/-- C122 in double precision for `JustNoise`, trained on the targets 1, 2 and 4, as reference, and a method that predicts the only feature with standard deviation 2. -/
example (draws : Str → Str → Draws) : ∃ full, regrBenchmarkR doubleLib ['f'] ['f'] ⟨[3, 1], 'f', [0]⟩ (realArr [1, 2, 4]) (echoTest [1, 5]) (realArr [2, 3])
      [("noise".toList, regrNoiseR doubleLib), ("echo".toList, echo)] (stdRegrLossR doubleLib) "noise".toList (.fin 0) true .t [] draws = .ok full ∧
      full.methods = ["echo".toList, "noise".toList] ∧ full.metrics = ["MAE".toList, "MSE".toList, "NLL".toList] := by
  have hs : 0 < doubleLib.sqrt (varR doubleLib 0 [1, 2, 4]) := by
    obtain ⟨s, -, s0, rfl, h⟩ := (C122_noise_fit doubleLib_good).1 [1, 2, 4] (by simp)
    refine lt_of_le_of_ne s0 fun e => ?_
    have h1 := h.1 e.symm 1 (by simp)
    have h2 := h.1 e.symm 2 (by simp)
    rw [← h1] at h2
    norm_num at h2
  obtain ⟨full, h, ⟨hm, hs⟩, hmet, -⟩ := C122_benchmark (L := doubleLib) doubleLib_good rfl ['f'] (xTrain := ⟨[3, 1], 'f', [0]⟩) (yTrain := realArr [1, 2, 4])
    (xTest := echoTest [1, 5]) (ys := [2, 3]) (by simp) (methods := [("noise".toList, regrNoiseR doubleLib), ("echo".toList, echo)]) (refMethod := "noise".toList) (c := 0)
    (pairwise := true) (methodEB := .t) (draws := draws) (by simp) (by simp)
    ⟨⟨3, 1, rfl, rfl, rfl⟩, by simp, rfl, by simp, le_refl _⟩
    (fun m => if m = "noise".toList then ([meanR doubleLib [1, 2, 4], meanR doubleLib [1, 2, 4]],
      [doubleLib.sqrt (varR doubleLib 0 [1, 2, 4]), doubleLib.sqrt (varR doubleLib 0 [1, 2, 4])]) else ([1, 5], [2, 2]))
    (by
      intro m hm
      simp only [List.mem_cons, List.not_mem_nil, or_false] at hm
      rcases hm with rfl | rfl
      · rw [if_pos rfl]
        refine ⟨(C88_method ..).1 ?_, rfl, rfl, ?_⟩
        · rw [C122_noise_predict doubleLib_good _ (echoTest [1, 5]) (by simp) (n := 2) (rest := [1]) rfl]
          simp [constArr, realArr, List.replicate]
        · intro s hs'
          simp only [List.mem_cons, List.not_mem_nil, or_false, or_self] at hs'
          rw [hs']
          exact lt_max_of_lt_right hs
      · rw [if_neg (by simp)]
        exact ⟨⟨_, rfl, Or.inl rfl⟩, rfl, rfl, by simp⟩) (by simp) (coversRegr_default _ _) (by simp)
  refine ⟨full, h, ?_, hmet⟩
  exact List.Perm.eq_of_pairwise (le := fun a b : Str => a ≤ b) (fun a b _ _ h1 h2 => List.le_antisymm h1 h2) hs (by decide) (hm.trans (by
    simp only [List.map_cons, List.map_nil]; decide))

end Mlp.Props
