import Verif.Spec.Header
import Verif.Lemmas.Print

/-! # Properties C18, C19: column headers -/

namespace Mlp.Props
open Mlp Spec Sciprint

/-- Every entry of the prefix dictionaries carries the exponent of its symbol. -/
theorem prefix_sound (useTex : Bool) (k : Int) (p : Str)
    (h : lookupInt (if useTex then siPrefixTex else siPrefix) k = some p) : siExp p = some k := by
  unfold lookupInt at h
  rw [Option.map_eq_some_iff] at h
  obtain ⟨kv, hkv, rfl⟩ := h
  have hmem := List.mem_of_find?_eq_some hkv
  have hk : kv.1 = k := by simpa using List.find?_some hkv
  have key : ∀ (u : Bool), ∀ kv ∈ (if u then siPrefixTex else siPrefix), siExp kv.2 = some kv.1 := by
    decide +kernel
  rw [key useTex kv hmem, hk]

theorem prefix_complete (useTex : Bool) (k : Int) (h : HasPrefix k) :
    ∃ p, lookupInt (if useTex then siPrefixTex else siPrefix) k = some p := by
  rw [← Option.isSome_iff_exists]
  have hk : -24 ≤ k ∧ k ≤ 24 := by unfold HasPrefix at h; omega
  obtain ⟨h1, h2⟩ := hk
  unfold HasPrefix at h
  interval_cases k <;> first | (exfalso; omega) | (cases useTex <;> decide +kernel)

theorem prefix_only (useTex : Bool) (k : Int) (p : Str)
    (h : lookupInt (if useTex then siPrefixTex else siPrefix) k = some p) : HasPrefix k := by
  unfold lookupInt at h
  rw [Option.map_eq_some_iff] at h
  obtain ⟨kv, hkv, rfl⟩ := h
  have hmem := List.mem_of_find?_eq_some hkv
  have hk : kv.1 = k := by simpa using List.find?_some hkv
  have key : ∀ (u : Bool), ∀ kv ∈ (if u then siPrefixTex else siPrefix),
      kv.1 = -1 ∨ kv.1 = -2 ∨ (3 ∣ kv.1 ∧ -24 ≤ kv.1 ∧ kv.1 ≤ 24) := by
    decide +kernel
  rw [← hk]; exact key useTex kv hmem

theorem intStr_reads (k : Int) : readInt (intStr k) = some k := by
  have hd := digitsStr_isDigit k.natAbs
  have hr := readNat_digitsStr k.natAbs
  unfold intStr
  by_cases h : k < 0
  · rw [if_pos h]
    simp only [List.cons_append, List.nil_append, readInt, hr, Option.map_some]
    congr 1; omega
  · rw [if_neg h, List.nil_append]
    cases hs : digitsStr k.natAbs with
    | nil => exact absurd hs (digitsStr_ne _)
    | cons c s =>
      have hc : c ≠ '-' := by
        rintro rfl
        have := hd '-' (by rw [hs]; simp)
        exact absurd this (by unfold IsDigit; decide)
      rw [hs] at hr
      unfold readInt
      split
      · rename_i heq; cases heq; exact absurd rfl hc
      · rw [hr, Option.map_some]; congr 1; omega

theorem intStr_chars (k : Int) : ∀ c ∈ intStr k, IsDigit c ∨ c = '-' := by
  intro c hc
  unfold intStr at hc
  rcases List.mem_append.mp hc with h | h
  · split at h
    · right; simpa using h
    · simp at h
  · left; exact digitsStr_isDigit _ c h

theorem fmtShift_eq (useTex : Bool) (m : Str) (s : Int) :
    fmtShift useTex m s = m ++ scaleText useTex (intStr s) := by
  cases useTex
  · simp [fmtShift, scaleText]
  · simp only [fmtShift, scaleText, if_true]
    have : " $\times 10^{".toList = " $".toList ++ [Char.ofNat 9] ++ "imes 10^{".toList := by decide
    rw [this]; simp

/-- The metric name as displayed. -/
abbrev shown (metric : Str) : Str := underscoreToSpace metric

/-- **C18** Underscores are shown as spaces and nothing else changes. -/
theorem C18_shown_name (metric : Str) :
    List.Forall₂ (fun c d => (c = '_' → d = ' ') ∧ (c ≠ '_' → d = c)) metric (shown metric) := by
  unfold shown underscoreToSpace
  rw [List.forall₂_map_right_iff, List.forall₂_same]
  intro c _
  by_cases h : c = '_' <;> simp [h]

/-- **C18** Estimate column with a unit, prefixes allowed, and a prefix existing for `10^-s`: the
header shows that prefix in front of the unit, and no other scale. -/
theorem C18_prefix (shifts : Str → Option Int) (ud : Str → Option Str) (useTex : Bool)
    (metric unit : Str) (s : Int) (hs : shifts metric = some s) (hu : ud metric = some unit)
    (hp : HasPrefix (-s)) :
    ∃ p, siExp p = some (-s) ∧ adjustHeader shifts ud true useTex (metric, .est) =
      .ok (braced useTex (shown metric ++ " (".toList ++ p ++ unit ++ ")".toList)) := by
  obtain ⟨p, hp⟩ := prefix_complete useTex (-s) hp
  refine ⟨p, prefix_sound useTex _ _ hp, ?_⟩
  unfold adjustHeader
  simp only [hs, hu, hp]
  cases useTex <;> rfl

/-- **C18** Estimate column without unit: the explicit exponent `s`, or nothing if `s = 0`. -/
theorem C18_unitless (shifts : Str → Option Int) (ud : Str → Option Str) (usePrefix useTex : Bool)
    (metric : Str) (s : Int) (hs : shifts metric = some s) (hu : ud metric = none) :
    (s = 0 → adjustHeader shifts ud usePrefix useTex (metric, .est) = .ok (braced useTex (shown metric))) ∧
    (s ≠ 0 → ∃ d, readInt d = some s ∧ adjustHeader shifts ud usePrefix useTex (metric, .est) =
      .ok (braced useTex (shown metric ++ scaleText useTex d))) := by
  constructor
  · intro h0
    unfold adjustHeader
    simp only [hs, hu, h0]
    cases useTex <;> rfl
  · intro h0
    refine ⟨intStr s, intStr_reads s, ?_⟩
    unfold adjustHeader
    simp only [hs, hu, fmtShift_eq, h0, ne_eq, not_false_iff, if_true]
    cases useTex <;> rfl

/-- **C18** Estimate column with a unit but no usable prefix: explicit exponent `s` (nothing if
`s = 0`) and the bare unit. -/
theorem C18_fallback (shifts : Str → Option Int) (ud : Str → Option Str) (usePrefix useTex : Bool)
    (metric unit : Str) (s : Int) (hs : shifts metric = some s) (hu : ud metric = some unit)
    (hp : usePrefix = false ∨ ¬ HasPrefix (-s)) :
    (s = 0 → adjustHeader shifts ud usePrefix useTex (metric, .est) =
      .ok (braced useTex (shown metric ++ " (".toList ++ unit ++ ")".toList))) ∧
    (s ≠ 0 → ∃ d, readInt d = some s ∧ adjustHeader shifts ud usePrefix useTex (metric, .est) =
      .ok (braced useTex (shown metric ++ scaleText useTex d ++ " (".toList ++ unit ++ ")".toList))) := by
  have hl : usePrefix = false ∨ lookupInt (if useTex then siPrefixTex else siPrefix) (-s) = none := by
    rcases hp with h | h
    · left; exact h
    · right
      by_contra hc
      obtain ⟨p, hp⟩ := Option.ne_none_iff_exists'.mp hc
      exact h (prefix_only useTex _ _ hp)
  have key : adjustHeader shifts ud usePrefix useTex (metric, .est) = .ok (braced useTex
      (if s ≠ 0 then shown metric ++ scaleText useTex (intStr s) ++ " (".toList ++ unit ++ ")".toList
        else shown metric ++ " (".toList ++ unit ++ ")".toList)) := by
    unfold adjustHeader
    simp only [hs, hu, fmtShift_eq]
    rcases hl with h | h
    · rw [h]; cases useTex <;> rfl
    · rw [h]; cases usePrefix <;> cases useTex <;> rfl
  constructor
  · intro h0; rw [key, if_neg (by simpa using h0)]
  · intro h0; exact ⟨intStr s, intStr_reads s, by rw [key, if_pos h0]⟩

/-- **C18** p columns are always `p`; a metric without a shift is an AssertionError. -/
theorem C18_pval (shifts : Str → Option Int) (ud : Str → Option Str) (usePrefix useTex : Bool)
    (metric : Str) :
    (∀ s, shifts metric = some s →
      adjustHeader shifts ud usePrefix useTex (metric, .pval) = .ok (braced useTex "p".toList)) ∧
    (shifts metric = none → ∀ stat,
      adjustHeader shifts ud usePrefix useTex (metric, stat) = .error .assertion) := by
  constructor
  · intro s hs
    unfold adjustHeader
    simp only [hs]
    cases useTex <;> rfl
  · intro hs stat
    unfold adjustHeader
    simp only [hs]; rfl

/-- **C18** The printed value times the factor of the prefix, or times `10^-s` of the explicit
form `x 1e<s>`, is the unshifted value. -/
theorem C18_factor (v : ℚ) (s : Int) : shifted v s * 10 ^ (-s) = v := by
  unfold shifted
  rw [mul_assoc, ← zpow_add₀ (by norm_num : (10 : ℚ) ≠ 0)]; simp

/-- **C18** All headers, in order. -/
theorem C18_headers (hd : List (Str × FmtStat)) (shifts : Str → Option Int) (ud : Str → Option Str)
    (usePrefix useTex : Bool) (out : List Str) :
    adjustHeaders hd shifts ud usePrefix useTex = .ok out ↔
      List.Forall₂ (fun el h => adjustHeader shifts ud usePrefix useTex el = .ok h) hd out := by
  unfold adjustHeaders
  exact mapM_ok_iff _ _ _

/-- C18, concrete: seconds shifted by 3 are milliseconds; shift 5 has no prefix. -/
example : adjustHeader (fun _ => some 3) (fun _ => some "s".toList) true false ("run_time".toList, .est)
      = .ok "run time (ms)".toList ∧
    adjustHeader (fun _ => some 5) (fun _ => some "s".toList) true false ("t".toList, .est)
      = .ok "t x 1e5 (s)".toList ∧
    adjustHeader (fun _ => some 6) (fun _ => some "s".toList) true true ("t".toList, .est)
      = .ok "{t ($\\mu$s)}".toList ∧
    adjustHeader (fun _ => some (-12)) (fun _ => none) true false ("t".toList, .est)
      = .ok "t x 1e-12".toList := by decide +kernel

/-! ## C19 -/

/-- **C19** Every TeX header with an explicit scale has a TAB followed by `imes` where `\times` was
meant, and contains a backslash only if the metric name or the unit does. -/
theorem C19_tab_in_tex (shifts : Str → Option Int) (ud : Str → Option Str) (usePrefix : Bool)
    (metric : Str) (s : Int) (hs : shifts metric = some s) (h0 : s ≠ 0)
    (hfb : ud metric = none ∨ usePrefix = false ∨ ¬ HasPrefix (-s)) :
    ∃ h pre post, adjustHeader shifts ud usePrefix true (metric, .est) = .ok h ∧
      h = pre ++ (Char.ofNat 9 :: "imes".toList) ++ post ∧
      ('\\' ∈ h → '\\' ∈ metric ∨ ∃ u, ud metric = some u ∧ '\\' ∈ u) := by
  have hbs : ∀ d : Str, (d = intStr s) → '\\' ∉ d := by
    rintro d rfl hc
    rcases intStr_chars s _ hc with h | h
    · exact absurd h (by unfold IsDigit; decide)
    · exact absurd h (by decide)
  have hshown : '\\' ∈ shown metric → '\\' ∈ metric := by
    intro h
    unfold shown underscoreToSpace at h
    obtain ⟨c, hc, he⟩ := List.mem_map.mp h
    split at he
    · exact absurd he (by decide)
    · rwa [he] at hc
  cases hu : ud metric with
  | none =>
    refine ⟨_, ['{'] ++ shown metric ++ " $".toList, " 10^{".toList ++ intStr s ++ "}$".toList ++ ['}'],
      ?_, rfl, ?_⟩
    · unfold adjustHeader
      simp only [hs, hu, fmtShift_eq, h0, ne_eq, not_false_iff, if_true, pure_eq_ok, scaleText]
      congr 1
      simp
    · intro hm
      left
      apply hshown
      simpa [hbs _ rfl] using hm
  | some u =>
    refine ⟨_, ['{'] ++ shown metric ++ " $".toList,
      " 10^{".toList ++ intStr s ++ "}$".toList ++ " (".toList ++ u ++ ")".toList ++ ['}'], ?_, rfl, ?_⟩
    · have hp : usePrefix = false ∨ ¬ HasPrefix (-s) := by
        rcases hfb with h | h
        · rw [hu] at h; cases h
        · exact h
      have hl : usePrefix = false ∨ lookupInt siPrefixTex (-s) = none := by
        rcases hp with h | h
        · left; exact h
        · right
          by_contra hc
          obtain ⟨p, hp⟩ := Option.ne_none_iff_exists'.mp hc
          exact h (prefix_only true _ p hp)
      unfold adjustHeader
      simp only [hs, hu, fmtShift_eq, if_true]
      rcases hl with h | h
      · rw [h]; simp [h0, scaleText, pure_eq_ok]
      · rw [h]; cases usePrefix <;> simp [h0, scaleText, pure_eq_ok]
    · intro hm
      have : '\\' ∈ shown metric ∨ '\\' ∈ u := by simpa [hbs _ rfl] using hm
      rcases this with h | h
      · left; exact hshown h
      · right; exact ⟨u, rfl, h⟩

/-- C19, concrete. -/
example : adjustHeader (fun _ => some 2) (fun _ => none) true true ("NLL".toList, .est) =
    .ok "{NLL $\times 10^{2}$}".toList ∧ "\times".toList = Char.ofNat 9 :: "imes".toList := by
  decide +kernel

end Mlp.Props
