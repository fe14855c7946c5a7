import Verif.Model.FormatStr
import Verif.Props.Print

/-! # C124: custom format strings for clipped values -/

namespace Mlp.Props
open Mlp Spec Sciprint

/-- A text as it has to be written in a format string: braces are doubled. -/
def fmtQuote (s : Str) : Str := s.flatMap fun c => if c = '{' ∨ c = '}' then [c, c] else [c]

/-- What is assumed of `Decimal.__format__`: the specification `,f` gives the text of `genFmt`. -/
def GenSpec (spec : Str → Dec → Py Str) : Prop := ∀ d, spec ",f".toList d = .ok (genFmt d)

/-- A field name without attributes, items, conversions and nested fields, and without overlong numbers: the
model of `str.format` is meant for these only. -/
def PlainName (name : Str) : Prop :=
  name.length ≤ 18 ∧ '.' ∉ name ∧ '[' ∉ name ∧ '!' ∉ name ∧ '{' ∉ name

variable {spec : Str → Dec → Py Str}

theorem formatGo_text (d : Dec) (num : Numbering) {c : Char} (l : Str) (h1 : c ≠ '{') (h2 : c ≠ '}') :
    formatGo spec d num none (c :: l) = (formatGo spec d num none l).bind fun r => .ok (c :: r) := by
  conv_lhs => rw [formatGo.eq_def]
  simp only [if_neg h1, if_neg h2]
  cases formatGo spec d num none l <;> rfl

theorem formatGo_open' (d : Dec) (num : Numbering) {l : Str} (hl : l.head? ≠ some '{') :
    formatGo spec d num none ('{' :: l) = formatGo spec d num (some []) l := by
  conv_lhs => rw [formatGo.eq_def]
  simp only [if_true]
  split
  · simp at hl
  · rfl

theorem formatGo_lone (d : Dec) (num : Numbering) {l : Str} (hl : l.head? ≠ some '}') :
    formatGo spec d num none ('}' :: l) = .error .valueError := by
  conv_lhs => rw [formatGo.eq_def]
  simp only [if_neg (show ¬ '}' = '{' by decide), if_true]
  split
  · simp at hl
  · rfl

/-- Quoted text is copied, braces included. -/
theorem formatGo_quote (d : Dec) (num : Numbering) (s l : Str) :
    formatGo spec d num none (fmtQuote s ++ l) =
      (formatGo spec d num none l).bind fun r => .ok (s ++ r) := by
  induction s with
  | nil =>
    show formatGo spec d num none l = _
    cases formatGo spec d num none l <;> rfl
  | cons c s ih =>
    have e : fmtQuote (c :: s) = (if c = '{' ∨ c = '}' then [c, c] else [c]) ++ fmtQuote s := by
      simp [fmtQuote]
    rw [e]
    by_cases h1 : c = '{'
    · subst h1
      show (formatGo spec d num none (fmtQuote s ++ l) >>= fun r => pure ('{' :: r)) = _
      rw [ih]
      cases formatGo spec d num none l <;> rfl
    · by_cases h2 : c = '}'
      · subst h2
        show (formatGo spec d num none (fmtQuote s ++ l) >>= fun r => pure ('}' :: r)) = _
        rw [ih]
        cases formatGo spec d num none l <;> rfl
      · rw [if_neg (by tauto)]
        show formatGo spec d num none (c :: (fmtQuote s ++ l)) = _
        rw [formatGo_text _ _ _ h1 h2, ih]
        cases formatGo spec d num none l <;> rfl

/-- The text of a field is collected up to the closing brace. -/
theorem formatGo_field (d : Dec) (num : Numbering) (acc body l : Str) (hb : '}' ∉ body) :
    formatGo spec d num (some acc) (body ++ '}' :: l) =
      (formatField spec d num (acc.reverse ++ body)).bind fun sn =>
        (formatGo spec d sn.2 none l).bind fun r => .ok (sn.1 ++ r) := by
  induction body generalizing acc with
  | nil => simp [formatGo]; rfl
  | cons c body ih =>
    have hc : c ≠ '}' := fun e => hb (by simp [e])
    rw [List.cons_append, formatGo, if_neg hc, ih (c :: acc) (fun h => hb (List.mem_cons_of_mem _ h))]
    simp

theorem takeWhile_colon {name : Str} (hn : ':' ∉ name) (sp : Str) :
    (name ++ ':' :: sp).takeWhile (· ≠ ':') = name ∧
      ((name ++ ':' :: sp).dropWhile (· ≠ ':')).drop 1 = sp := by
  induction name with
  | nil => simp
  | cons c name ih =>
    have hc : c ≠ ':' := fun e => hn (by simp [e])
    have := ih (fun h => hn (List.mem_cons_of_mem _ h))
    simp only [List.cons_append, List.takeWhile_cons, List.dropWhile_cons, hc, ne_eq, not_false_eq_true,
      decide_true, if_true]
    exact ⟨congrArg (c :: ·) this.1, this.2⟩

theorem formatGo_open (d : Dec) (num : Numbering) {c : Char} (l : Str) (hc : c ≠ '{') :
    formatGo spec d num none ('{' :: c :: l) = formatGo spec d num (some []) (c :: l) :=
  formatGo_open' d num (by simpa using hc)

/-- C124: a format string made of text (with doubled braces) around one field `{name:sp}`, the name being `0`
or empty, gives that text around the argument formatted with `sp`; an exception of the formatting is passed
on. -/
theorem C124_template (d : Dec) (s t name sp : Str) (hname : name = ['0'] ∨ name = []) (hsp : '}' ∉ sp)
    (_hsp' : '{' ∉ sp) :
    strFormat spec (fmtQuote s ++ '{' :: name ++ ':' :: sp ++ '}' :: fmtQuote t) d =
      (spec sp d).bind fun x => .ok (s ++ x ++ t) := by
  have e : fmtQuote s ++ '{' :: name ++ ':' :: sp ++ '}' :: fmtQuote t =
      fmtQuote s ++ ('{' :: ((name ++ ':' :: sp) ++ '}' :: (fmtQuote t ++ []))) := by simp
  rw [e, strFormat, formatGo_quote]
  have hopen : formatGo spec d .unset none ('{' :: ((name ++ ':' :: sp) ++ '}' :: (fmtQuote t ++ []))) =
      formatGo spec d .unset (some []) ((name ++ ':' :: sp) ++ '}' :: (fmtQuote t ++ [])) := by
    rcases hname with rfl | rfl
    · exact formatGo_open _ _ _ (by decide)
    · exact formatGo_open _ _ _ (by decide)
  have hb : '}' ∉ name ++ ':' :: sp := by
    rcases hname with rfl | rfl <;> simp [hsp]
  obtain ⟨k1, k2⟩ := takeWhile_colon (name := name) (by rcases hname with rfl | rfl <;> decide) sp
  have hfield : ∃ num, formatField spec d .unset (name ++ ':' :: sp) =
      (spec sp d).bind fun x => .ok (x, num) := by
    unfold formatField
    rw [k1, k2]
    rcases hname with rfl | rfl
    · exact ⟨.manual, by cases spec sp d <;> rfl⟩
    · exact ⟨.auto 1, by cases spec sp d <;> rfl⟩
  obtain ⟨num, hfield⟩ := hfield
  rw [hopen, formatGo_field _ _ _ _ _ hb, List.reverse_nil, List.nil_append, hfield]
  cases spec sp d with
  | error e => rfl
  | ok x =>
    show ((formatGo spec d num none (fmtQuote t ++ [])).bind fun r => .ok (x ++ r)).bind _ = _
    rw [formatGo_quote]
    simp only [formatGo]
    show Except.ok (s ++ (x ++ (t ++ []))) = Except.ok (s ++ x ++ t)
    simp

/-- C124: the default format strings: the number alone, or after `>` or `<`. -/
theorem C124_default_strings (hs : GenSpec spec) (d : Dec) :
    strFormat spec genFmtStr d = .ok (genFmt d) ∧
    strFormat spec aboveFmtStr d = .ok ('>' :: genFmt d) ∧
    strFormat spec belowFmtStr d = .ok ('<' :: genFmt d) := by
  have hsp : '}' ∉ ",f".toList := by decide
  have := fun s => C124_template (spec := spec) d s [] ['0'] ",f".toList (.inl rfl) hsp (by decide)
  simp only [hs d] at this
  refine ⟨?_, ?_, ?_⟩
  · have h := this []
    simpa [Except.bind, fmtQuote, genFmtStr, aboveFmtStr, belowFmtStr] using h
  · have h := this ['>']
    simpa [Except.bind, fmtQuote, genFmtStr, aboveFmtStr, belowFmtStr] using h
  · have h := this ['<']
    simpa [Except.bind, fmtQuote, genFmtStr, aboveFmtStr, belowFmtStr] using h

/-- C124: a brace that is neither doubled nor part of a field is a ValueError: a lone closing one, and an
opening one that is never closed. -/
theorem C124_lone_brace (d : Dec) (s : Str) :
    (∀ l : Str, l.head? ≠ some '}' → strFormat spec (fmtQuote s ++ '}' :: l) d = .error .valueError) ∧
    (∀ l : Str, l.head? ≠ some '{' → '}' ∉ l → strFormat spec (fmtQuote s ++ '{' :: l) d = .error .valueError) := by
  constructor
  · intro l hl
    rw [strFormat, formatGo_quote]
    rw [formatGo_lone _ _ hl]; rfl
  · intro l hl hb
    rw [strFormat, formatGo_quote]
    have key : ∀ (l acc : Str), '}' ∉ l → formatGo spec d .unset (some acc) l = .error .valueError := by
      intro l
      induction l with
      | nil => intro acc _; rfl
      | cons c l ih =>
        intro acc h
        rw [formatGo, if_neg (fun e => h (by simp [e])), ih _ (fun h' => h (List.mem_cons_of_mem _ h'))]
    rw [formatGo_open' _ _ hl, key _ _ hb]; rfl

/-- C124: a field with any other name: a positive number is an IndexError, a word a KeyError.  (Numbers of more
than 18 digits are left out, as Python has a limit for them.) -/
theorem C124_bad_name (d : Dec) (s l sp name : Str) (hsp : '}' ∉ sp) (h1 : '}' ∉ name) (h2 : ':' ∉ name)
    (h3 : name.head? ≠ some '{') (hne : name ≠ []) (_hplain : PlainName name) (_hsp' : '{' ∉ sp) :
    (¬ name.all Char.isDigit → strFormat spec (fmtQuote s ++ '{' :: name ++ ':' :: sp ++ '}' :: l) d =
      .error .keyError) ∧
    (name.all Char.isDigit → name.foldl (fun n c => 10 * n + (c.toNat - 48)) 0 ≠ 0 →
      strFormat spec (fmtQuote s ++ '{' :: name ++ ':' :: sp ++ '}' :: l) d = .error .indexError) := by
  have e : fmtQuote s ++ '{' :: name ++ ':' :: sp ++ '}' :: l =
      fmtQuote s ++ ('{' :: ((name ++ ':' :: sp) ++ '}' :: l)) := by simp
  obtain ⟨c, name', rfl⟩ : ∃ c name', name = c :: name' := by
    cases name with
    | nil => exact absurd rfl hne
    | cons c l => exact ⟨_, _, rfl⟩
  have hc : c ≠ '{' := fun e => h3 (by simp [e])
  have hb : '}' ∉ c :: name' ++ ':' :: sp := by
    rw [List.mem_append, List.mem_cons (a := '}') (b := ':')]
    rintro (h | h | h)
    · exact h1 h
    · exact absurd h (by decide)
    · exact hsp h
  obtain ⟨k1, k2⟩ := takeWhile_colon h2 sp
  have hopen : formatGo spec d .unset none ('{' :: ((c :: name' ++ ':' :: sp) ++ '}' :: l)) =
      (formatField spec d .unset (c :: name' ++ ':' :: sp)).bind fun sn =>
        (formatGo spec d sn.2 none l).bind fun r => .ok (sn.1 ++ r) := by
    have := formatGo_open (spec := spec) d .unset ((name' ++ ':' :: sp) ++ '}' :: l) hc
    have h' := formatGo_field (spec := spec) d .unset [] (c :: name' ++ ':' :: sp) l hb
    simp only [List.reverse_nil, List.nil_append] at h'
    rw [← h']
    exact this
  rw [e, strFormat, formatGo_quote, hopen]
  unfold formatField fieldIndex
  rw [k1]
  constructor
  · intro hd
    rw [if_neg hne, if_neg hd]; rfl
  · intro hd hz
    rw [if_neg hne, if_pos hd]
    simp only [ok_bind]
    rw [if_pos hz]; rfl

theorem ebind_ok {α β : Type} (a : α) (f : α → Py β) : (Except.ok a : Py α).bind f = f a := rfl

/-- One field `{name:sp}` in any state of the numbering. -/
theorem formatGo_one (d : Dec) (num : Numbering) (name sp l : Str) (h1 : '}' ∉ name) (h2 : ':' ∉ name)
    (h3 : name.head? ≠ some '{') (hsp : '}' ∉ sp) :
    formatGo spec d num none ('{' :: name ++ ':' :: sp ++ '}' :: l) =
      ((fieldIndex num name).bind fun x => if x.1 ≠ 0 then .error .indexError else
        (spec sp d).bind fun y => (formatGo spec d x.2 none l).bind fun r => .ok (y ++ r)) := by
  have e : '{' :: name ++ ':' :: sp ++ '}' :: l = '{' :: ((name ++ ':' :: sp) ++ '}' :: l) := by simp
  have hb : '}' ∉ name ++ ':' :: sp := by
    rw [List.mem_append, List.mem_cons (a := '}') (b := ':')]
    rintro (h | h | h)
    · exact h1 h
    · exact absurd h (by decide)
    · exact hsp h
  obtain ⟨k1, k2⟩ := takeWhile_colon h2 sp
  have hh : ((name ++ ':' :: sp) ++ '}' :: l).head? ≠ some '{' := by
    cases name with
    | nil => simp
    | cons c n => simpa using h3
  rw [e, formatGo_open' _ _ hh, formatGo_field _ _ _ _ _ hb]
  simp only [List.reverse_nil, List.nil_append]
  unfold formatField
  rw [k1, k2]
  cases fieldIndex num name with
  | error _ => rfl
  | ok x =>
    obtain ⟨i, n⟩ := x
    by_cases hi : i = 0
    · subst hi
      cases spec sp d <;> rfl
    · rw [ebind_ok, if_pos hi]
      simp only [ok_bind]
      rw [if_pos hi]
      rfl

/-- The text of several fields `{0:sp}`, each after some text. -/
def manyFields (l : List (Str × Str)) : Str :=
  l.flatMap fun p => fmtQuote p.1 ++ '{' :: '0' :: ':' :: p.2 ++ ['}']

/-- C124: several fields.  If all are numbered `0`, the argument is formatted by each of them in turn, with the
texts in between; the first exception is passed on. -/
theorem C124_many (d : Dec) (l : List (Str × Str)) (t : Str)
    (h : ∀ p ∈ l, '}' ∉ p.2 ∧ '{' ∉ p.2) :
    strFormat spec (manyFields l ++ fmtQuote t) d =
      (l.mapM fun p => (spec p.2 d).map fun x => p.1 ++ x).bind fun xs => .ok (xs.flatten ++ t) := by
  have key : ∀ (l : List (Str × Str)) (num : Numbering), (num = .unset ∨ num = .manual) →
      (∀ p ∈ l, '}' ∉ p.2 ∧ '{' ∉ p.2) → formatGo spec d num none (manyFields l ++ fmtQuote t) =
      (l.mapM fun p => (spec p.2 d).map fun x => p.1 ++ x).bind fun xs => .ok (xs.flatten ++ t) := by
    intro l
    induction l with
    | nil =>
      intro num _ _
      have := formatGo_quote (spec := spec) d num t []
      rw [List.append_nil] at this
      show formatGo spec d num none (fmtQuote t) = _
      rw [this]
      simp [formatGo, Except.bind, pure_eq_ok]
    | cons p l ih =>
      intro num hnum hp
      have e : manyFields (p :: l) ++ fmtQuote t =
          fmtQuote p.1 ++ ('{' :: ['0'] ++ ':' :: p.2 ++ '}' :: (manyFields l ++ fmtQuote t)) := by
        simp [manyFields]
      have hidx : fieldIndex num ['0'] = .ok (0, .manual) := by
        rcases hnum with rfl | rfl <;> rfl
      rw [e, formatGo_quote, formatGo_one _ _ _ _ _ (by decide) (by decide) (by decide) (hp p (by simp)).1,
        hidx, List.mapM_cons, ebind_ok]
      rw [if_neg (by simp), ih .manual (.inr rfl) (fun q hq => hp q (List.mem_cons_of_mem _ hq))]
      cases spec p.2 d with
      | error _ => rfl
      | ok y =>
        show (Except.bind (Except.bind (Except.bind _ _) _) _ : Py Str) = _
        generalize (l.mapM fun p => Except.map (fun x => p.1 ++ x) (spec p.2 d) : Py (List Str)) = m
        cases m with
        | error _ => rfl
        | ok xs =>
          show Except.ok (p.1 ++ (y ++ (xs.flatten ++ t))) = Except.ok _
          simp [pure_eq_ok]
  exact key l .unset (.inl rfl) h

/-- C124: numbered and unnumbered fields cannot be mixed (ValueError), and a second unnumbered field asks for a
second argument (IndexError). -/
theorem C124_mixed (d : Dec) (s t sp sp' l x : Str) (h1 : '}' ∉ sp) (_h1' : '{' ∉ sp) (h2 : '}' ∉ sp') (_h2' : '{' ∉ sp')
    (hx : spec sp d = .ok x) :
    strFormat spec (fmtQuote s ++ '{' :: '0' :: ':' :: sp ++ '}' :: (fmtQuote t ++ ('{' :: ':' :: sp' ++ '}' :: l))) d =
      .error .valueError ∧
    strFormat spec (fmtQuote s ++ '{' :: ':' :: sp ++ '}' :: (fmtQuote t ++ ('{' :: '0' :: ':' :: sp' ++ '}' :: l))) d =
      .error .valueError ∧
    strFormat spec (fmtQuote s ++ '{' :: ':' :: sp ++ '}' :: (fmtQuote t ++ ('{' :: ':' :: sp' ++ '}' :: l))) d =
      .error .indexError := by
  have go : ∀ (n1 n2 : Str) (num : Numbering) (err : PyErr), (n1 = [] ∨ n1 = ['0']) → (n2 = [] ∨ n2 = ['0']) →
      fieldIndex .unset n1 = .ok (0, num) →
      ((fieldIndex num n2).bind fun x => if x.1 ≠ 0 then .error .indexError else
        (spec sp' d).bind fun y => (formatGo spec d x.2 none l).bind fun r => .ok (y ++ r)) = .error err →
      strFormat spec (fmtQuote s ++ ('{' :: n1 ++ ':' :: sp ++ '}' :: (fmtQuote t ++ ('{' :: n2 ++ ':' :: sp' ++ '}' :: l)))) d =
        .error err := by
    intro n1 n2 num err hn1 hn2 e1 e2
    have f1 : '}' ∉ n1 ∧ ':' ∉ n1 ∧ n1.head? ≠ some '{' := by rcases hn1 with rfl | rfl <;> decide
    have f2 : '}' ∉ n2 ∧ ':' ∉ n2 ∧ n2.head? ≠ some '{' := by rcases hn2 with rfl | rfl <;> decide
    rw [strFormat, formatGo_quote, formatGo_one _ _ _ _ _ f1.1 f1.2.1 f1.2.2 h1, e1, ebind_ok]
    rw [if_neg (by simp), hx]
    show (Except.bind (Except.bind (formatGo spec d num none _) _) _ : Py Str) = _
    rw [formatGo_quote, formatGo_one _ _ _ _ _ f2.1 f2.2.1 f2.2.2 h2, e2]
    rfl
  refine ⟨?_, ?_, ?_⟩
  · have := go ['0'] [] .manual .valueError (.inr rfl) (.inl rfl) rfl rfl
    simpa using this
  · have := go [] ['0'] (.auto 1) .valueError (.inl rfl) (.inr rfl) rfl rfl
    simpa using this
  · have := go [] [] (.auto 1) .indexError (.inl rfl) (.inl rfl) rfl rfl
    simpa using this

/-- C124: with the default format strings the functions are those of the other theorems. -/
theorem C124_default (hs : GenSpec spec) (mu EB : Dec) (shift : Int) (a b : Dec) (nff : NonFiniteFmt) :
    printEstimateWith spec mu EB shift a b belowFmtStr aboveFmtStr nff = printEstimate mu EB shift a b nff ∧
    printPvalWith spec mu belowFmtStr nff = printPval mu nff := by
  constructor
  · unfold printEstimateWith printEstimate
    simp only [(C124_default_strings hs _).1, (C124_default_strings hs _).2.1,
      (C124_default_strings hs _).2.2]
    rfl
  · unfold printPvalWith printPval
    simp only [(C124_default_strings hs _).1, (C124_default_strings hs _).2.2]
    rfl

/-- C124: the format strings matter only for a clipped estimate, where the limit in the shifted scale is
formatted with `above_fmt` or `below_fmt`; in all other cases `print_estimate` does what it does with the
default ones, however malformed they are. -/
theorem C124_estimate (hs : GenSpec spec) (mu EB : Dec) (shift : Int) (a b : Dec) (below above : Str)
    (nff : NonFiniteFmt) :
    (ValidClips a b → DLt b mu → printEstimateWith spec mu EB shift a b below above nff =
      strFormat spec above (Dec.scaleb shift b)) ∧
    (ValidClips a b → DLt mu a → printEstimateWith spec mu EB shift a b below above nff =
      strFormat spec below (Dec.scaleb shift a)) ∧
    (¬ (ValidClips a b ∧ (DLt b mu ∨ DLt mu a)) → printEstimateWith spec mu EB shift a b below above nff =
      printEstimate mu EB shift a b nff) := by
  refine ⟨?_, ?_, ?_⟩
  · intro h hc
    obtain ⟨h1, h2, h3⟩ := (validClips_iff a b).mpr h
    have hmu : mu.isNan = false := by cases mu <;> cases b <;> simp_all [DLt, Dec.isNan]
    have hb : b.isFinite = true := by
      rcases h.2.1 with rfl | ⟨n, c, e, rfl⟩
      · cases mu with
        | nan => simp [DLt] at hc
        | inf n => cases n <;> simp [DLt] at hc
        | fin => simp [DLt] at hc
      · rfl
    have hle := (not_leNum_iff b mu h.notNan.2 hmu).mpr hc
    unfold printEstimateWith
    simp only [pyAssert_bind]
    rw [if_pos h1, if_pos h2, if_pos h3, if_pos (by simp [hmu, hle]), if_pos hb]
  · intro h hc
    obtain ⟨h1, h2, h3⟩ := (validClips_iff a b).mpr h
    have hmu : mu.isNan = false := by cases mu <;> cases a <;> simp_all [DLt, Dec.isNan]
    have ha : a.isFinite = true := by
      rcases h.1 with rfl | ⟨n, c, e, rfl⟩
      · cases mu with
        | nan => simp [DLt] at hc
        | inf n => cases n <;> simp [DLt] at hc
        | fin => simp [DLt] at hc
      · rfl
    have hle := (not_leNum_iff mu a hmu h.notNan.1).mpr hc
    have hnb : ¬ DLt b mu := fun hb => by
      have hb' := (dlt_iff_not_dle b mu h.notNan.2 hmu).1 hb
      apply hb'
      have h3' := h.2.2
      cases mu with
      | nan => simp [Dec.isNan] at hmu
      | inf n =>
        cases n
        · rcases h.1 with rfl | ⟨n', c', e', rfl⟩ <;> simp [DLt] at hc
        · rcases h.2.1 with rfl | ⟨n', c', e', rfl⟩ <;> simp [DLe]
      | fin n c e =>
        rcases h.2.1 with rfl | ⟨n', c', e', rfl⟩
        · simp [DLe]
        · rcases h.1 with rfl | ⟨n'', c'', e'', rfl⟩
          · simp [DLt] at hc
          · simp only [DLt, DLe] at *; exact le_of_lt (lt_trans hc h3')
    have hle' : Dec.leNum mu b = true := by
      by_contra hn
      exact hnb ((not_leNum_iff b mu h.notNan.2 hmu).1 (by simpa using hn))
    unfold printEstimateWith
    simp only [pyAssert_bind]
    rw [if_pos h1, if_pos h2, if_pos h3, if_neg (by simp [hle']), if_pos (by simp [hmu, hle]), if_pos ha]
  · intro hno
    by_cases h : ValidClips a b
    · have h4 : ¬ ((!mu.isNan && !(Dec.leNum mu b)) = true) := by
        intro hc
        rw [Bool.and_eq_true] at hc
        refine hno ⟨h, .inl ?_⟩
        exact (not_leNum_iff b mu h.notNan.2 (by simpa using hc.1)).1 (by simpa using hc.2)
      have h5 : ¬ ((!mu.isNan && !(Dec.leNum a mu)) = true) := by
        intro hc
        rw [Bool.and_eq_true] at hc
        refine hno ⟨h, .inr ?_⟩
        exact (not_leNum_iff mu a (by simpa using hc.1) h.notNan.1).1 (by simpa using hc.2)
      unfold printEstimateWith printEstimate
      simp only [(C124_default_strings hs _).1, if_neg h4, if_neg h5]
      rfl
    · rw [printEstimate_invalid _ _ _ _ _ _ h]
      unfold printEstimateWith
      rw [← validClips_iff] at h
      simp only [pyAssert_bind]
      by_cases h1 : (a == .inf true || a.isFinite) = true
      · rw [if_pos h1]
        by_cases h2 : (b == .inf false || b.isFinite) = true
        · rw [if_pos h2, if_neg (fun h3 => h ⟨h1, h2, h3⟩)]
        · rw [if_neg h2]
      · rw [if_neg h1]

/-- C124: `print_pval` uses `below_fmt` only for a p-value that is not above the smallest positive one of its
precision, which is then formatted; in all other cases it does what it does with the default. -/
theorem C124_pval (hs : GenSpec spec) (n : Bool) (c : Nat) (e : Int) (below : Str) (nff : NonFiniteFmt) :
    (0 ≤ sval n c e → sval n c e ≤ sval false 1 e →
      printPvalWith spec (.fin n c e) below nff = strFormat spec below (.fin false 1 e)) ∧
    (¬ (0 ≤ sval n c e ∧ sval n c e ≤ sval false 1 e) →
      printPvalWith spec (.fin n c e) below nff = printPval (.fin n c e) nff) ∧
    printPvalWith spec .nan below nff = printPval .nan nff := by
  have heps : decimalEps (.fin n c e) = .fin false 1 e := rfl
  have hle : Dec.leNum (.fin n c e) (.fin false 1 e) = true ↔ sval n c e ≤ sval false 1 e := by
    rw [leNum_iff]; rfl
  have h0 : Dec.leNum (.ofNat 0) (.fin n c e) = true ↔ 0 ≤ sval n c e := by
    rw [leNum_iff]
    show sval false 0 0 ≤ _ ↔ _
    simp [sval]
  refine ⟨?_, ?_, rfl⟩
  · intro h1 h2
    unfold printPvalWith
    rw [heps]
    simp only [Dec.isNan, Bool.false_eq_true, if_false, hle.2 h2, if_true, h0.2 h1, Bool.and_self,
      pyAssert_bind]
  · intro hno
    unfold printPvalWith printPval
    rw [heps]
    simp only [(C124_default_strings hs _).1]
    by_cases h2 : sval n c e ≤ sval false 1 e
    · have h1 : ¬ 0 ≤ sval n c e := fun h1 => hno ⟨h1, h2⟩
      have h1' : Dec.leNum (.ofNat 0) (.fin n c e) = false := by
        rw [← Bool.not_eq_true, h0]; exact h1
      simp only [Dec.isNan, Bool.false_eq_true, if_false, hle.2 h2, if_true, h1', Bool.false_and,
        pyAssert_bind]
    · have h2' : Dec.leNum (.fin n c e) (.fin false 1 e) = false := by
        rw [← Bool.not_eq_true, hle]; exact h2
      simp only [Dec.isNan, Bool.false_eq_true, if_false, h2']
      rfl

/-- `Decimal.__format__` for `,f` alone. -/
def exSpec (s : Str) (d : Dec) : Py Str := if s = ",f".toList then .ok (genFmt d) else .error .valueError

example : GenSpec exSpec := fun _ => rfl

/-- A LaTeX format string with doubled braces. -/
example : printEstimateWith exSpec (.fin false 12345 (-3)) (.inf false) 0 (.inf true) (.fin false 1 1)
    belowFmtStr "\\textbf{{>{0:,f}}}".toList (fun _ => none) = .ok "\\textbf{>10}".toList ∧
    printPvalWith exSpec (.fin false 0 (-4)) "$<${:,f}".toList (fun _ => none) = .ok "$<$0.0001".toList ∧
    printPvalWith exSpec (.fin false 0 (-4)) "<{}{0:,f}".toList (fun _ => none) = .error .valueError ∧
    printPvalWith exSpec (.fin false 0 (-4)) "<{1:,f}".toList (fun _ => none) = .error .indexError ∧
    printPvalWith exSpec (.fin false 0 (-4)) "<{eps:,f}".toList (fun _ => none) = .error .keyError ∧
    printPvalWith exSpec (.fin false 5 (-4)) "<{eps".toList (fun _ => none) = .ok "0.0005".toList := by
  decide +kernel

end Mlp.Props
