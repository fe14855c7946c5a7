# Formal model of mlpaper in Lean 4: design

Source: `rdturnermtl/mlpaper`, read as text from `/repo` (never built or run). The Lean project is in `lean/`.
This file is assembled by `tools/gen_design.py` from `tools/design_head.md` (written by hand) and the doc comments of the theorems.

## 1. Layout

| folder | content |
|---|---|
| `Verif/Model/*.lean` | the model: one Lean function per Python function, statement by statement; every definition cites file and lines |
| `Verif/Spec/*.lean` | small independent specifications (a reader of printed numbers, threshold counts, order statistics, integrals, expectations, ...) that do not call the model |
| `Verif/Lemmas/*.lean` | helper lemmas |
| `Verif/Props/*.lean` | the property theorems, named `Cnn_...`; next to them `example`s with concrete non-trivial data that meet the hypotheses |
| `properties.jsonl` | the properties in English |
| `MANIFEST.json` | status and theorem names per property, written by `tools/gen_manifest.py` |
| `seeded/LOG.jsonl` | the wrong programs the theorems were tried against (section 6) |
| `AXIOMS.txt` | the axioms each manifest theorem depends on |

### What is modelled

| model file | Python code |
|---|---|
| `Py` | exceptions and `assert` |
| `Decimal` | the parts of Python's `decimal` the package uses: context rounding, `quantize`, `scaleb`, comparison, `adjusted`, `as_tuple`, `{0:,f}`; exact conversion of binary floats |
| `Constants` | `constants.py`: prefix tables, column labels |
| `Sciprint`, `FormatStr` | all of `sciprint.py` (`FormatStr`: with custom format strings), except the last step of `table_to_latex`/`table_to_string` (pandas `to_latex`, `to_string`) |
| `Export` | that last step: the text made by pandas 0.24 `to_latex` and `to_string` |
| `DataSplitter` | all of `data_splitter.py` (`build_lag_df` up to the exception it always raises) |
| `Flt` | IEEE special values over an ordered field, numpy reductions |
| `BootUtil` | all of `boot_util.py` |
| `Mlpaper` | all of `mlpaper.py` (`clip_EB`, t, Bernstein and bootstrap tests and error bars, `get_*`, `loss_summary_table`) |
| `ClipChk`, `Util`, `UtilHeap` | all of `util.py` (`_remove_chars_py2` excepted; `remove_chars` is in `Sciprint`) |
| `PerfCurves` | all of `perf_curves.py` |
| `Round`, `PerfRound`, `BootRound`, `MlpaperRound`, `CurveRound`, `LossRound` | binary64 rounding; the curve functions of `perf_curves.py`, all of `boot_util.py` and of `mlpaper.py`, `area` and `interp1d` of `util.py`, `curve_boot`, `curve_summary_table`, the losses, loss tables, predictions, references and `just_benchmark` of `classification.py` and `regression.py` again with every operation rounded |
| `ClassLoss`, `ClassTable`, `CurveBoot` | all of `classification.py` |
| `Frame` | the pandas operations used for tables with a column MultiIndex |
| `Regression` | all of `regression.py` |
| `Checkpoint` | `get_pred_log_prob` and `get_gauss_pred` with `checkpointdir`: joblib's cache as a store, runs that die at any point, damaged results |

### What is not modelled

* printing with `verbose`, warnings, messages of exceptions;
* overflow and underflow of binary floating point arithmetic, except for the curves and their bootstrap (C127 proves that
  they do not happen there) in `loss_summary_table` (underflow C128, overflow C129) in the losses of regressors (C149) and in `normalize` and `brier_loss` (C150); rounding, except where noted in section 2;
* signed zero of floats (the sign of a decimal zero is modelled);
* Python 2 branches, running Python with `-O`;
* the estimators of scikit-learn: an estimator is any function from its state and the data to a prediction or an exception;
* how random numbers are generated (C93–C96, C130–C132 and C140–C143 are about random data; C97 and C98 take the permutations and the bootstrap draws as uniform);
* pandas label alignment, repeated labels in a MultiIndex, dtype promotion beyond what the code's own assertions look at;
* in-place effects and aliasing, except for `cummax_strict` (`UtilHeap`); the other functions are modelled by what they return.

## 2. Modelling conventions

* **Exceptions** are values: `Py α := Except PyErr α`. `assert` raises `PyErr.assertion`. The order of checks is that of the code, so
  "which exception" is part of most theorems.
* **Floats.** `Flt K` = finite element of a linearly ordered field `K`, `+inf`, `-inf`, `nan`, with the IEEE rules for the special
  values (NaN compares false, inf-inf = NaN, x/0 = ±inf, 0/0 = NaN) and *exact* arithmetic on finite values. Exceptions to exactness:
  (a) `decimalize` takes floats as exact dyadic rationals, where Python's `Decimal` conversion is exact too, so the `sciprint` theorems
  (C01–C22) are about real floats; (b) where a rounding function can be a parameter (`rand_subset`, `rand_mask`,
  `ordered_split_series`, `linear_split_series`, `cummax_strict` with an abstract successor function) it is one; (c) C104–C111, C113–C116, part of C118 and C119 onwards are about
  a second model of the curves, of `boot_util.py`, of `mlpaper.py`, of `curve_boot` and of the losses and benchmarks in which every addition, subtraction, multiplication and division is rounded: rounding is any monotone, odd, idempotent
  function that keeps 0 and 1 and the sign (`Round.FloatRounding`), with relative error at most `u` where accuracy matters, and `np.sum` may add
  along any tree. `Round.binary64` (round to nearest, ties to even, 53 bits, exponents unbounded) is constructed and proved to be one. In C108–C111 and C133–C139 the other library functions (sqrt, log, exp,
  `np.roots`, `ss.t`) are parameters (`PaperR.Lib`) of which only signs and ranges are used (`Spec.GoodLib`), and for accuracy a relative error (`Spec.AccurateLib`, `AccurateQuantile`, `AccurateRoots`, `AccurateSf`); `doubleLib`, correctly rounded, meets them; for the losses also the values and sides of exp and log at 0 and 1 (`Spec.GoodExpLog`) and, for `np.dot`, an error bound (`Spec.DotError`), all proved for double precision. C110, C113 and C119 say that
  this second model is the first one if nothing is rounded. After an "all finite"
  assertion functions continue in `K`. `K = ℚ` is used for executable examples; `ℝ` where exp, log, sqrt occur.
* **Decimal** follows the General Decimal Arithmetic specification as implemented by Python's `decimal`: sign, coefficient,
  exponent, context precision 28, ROUND_HALF_EVEN by default. NaN payloads are dropped. Exponents are unbounded;
  `Model/DecimalLimits.lean` models `_fix`, `quantize` and `scaleb` with `Emax`/`Emin`, and C144 proves that for tables of floats both give the same.
* **Strings** are `List Char`.
* **Arguments are values.** The model is purely functional. In /repo the only assignments into arrays that may belong to the caller are those of
  `cummax_strict(copy=False)`, which says so; every other assignment is into an array or table made by the same function (or copied first, as by the `astype(float)` of
  `_add_pseudo_points`), so sharing of memory is not modelled.
* **Randomness** is a parameter: a permutation for `np.random.choice(replace=False)` (numpy: `x[permutation(n)[:N]]`), a matrix of
  non-negative integers with row sum N for the multinomial, numbers in [0,1) for `rand`. Theorems quantify over all outcomes; C97 and C98 count
  the equally likely ones.
* **Probabilities.** The set of outcomes in which a program shows something need not be measurable (it may also depend on draws about which
  nothing is assumed), and `P.real` of such a set is its outer measure. Bounds from above (`P.real {bad} ≤ α`) are strong in this reading. Bounds from
  below are therefore stated by `Spec.Likely` (the set contains a measurable set of that probability), exact values by `Spec.IsProb` (the set is
  measurable and has that probability) and limits by `Spec.ProbTendsto`.
* **Library functions** are modelled by their contract: an unstable `argsort` is any sorting permutation (the theorems hold for all of
  them), `np.percentile(lower/higher)` is the order statistic at floor/ceil of `(n-1)q/100`, `np.interp`, `interp1d`, `searchsorted`,
  `np.trapz`, `logsumexp` by definition. The t distribution is a parameter of the model with symmetric, strictly increasing and
  continuous distribution function; `C45_student` instantiates it with Student's t distribution (density, integral and inverse constructed
  in `Lemmas/StudentT.lean`), so that hypothesis is met.
* **Tables** (pandas) are lists of labels plus columns.
* **Text export.** `Model/Export.lean` follows `to_latex` and `to_string` of pandas 0.24 as known to the author; the pandas source is not in
  the sandbox, so this part could only be compared with the sample output in `README.rst`, with which it agrees up to blanks next
  to the empty corner of the table.
* Library versions read as pinned by `/repo/requirements`: numpy 1.15.0, pandas 0.24.0, scipy 1.1.0, joblib 0.11.

## 3. Trusted base

* Lean 4.33.0's kernel and Mathlib as installed. No `axiom`, `sorry`, `native_decide`, `bv_decide`. Every theorem depends on at most
  `propext`, `Classical.choice`, `Quot.sound`; the list per theorem is in `AXIOMS.txt`.
* The reading of `/repo` into the model, and the contracts of numpy, pandas, scipy, joblib and `decimal` above.
* The specifications in `Verif/Spec` saying what the English says.

## 4. Findings about the code

These follow from theorems; each is what the code does today, stated as such.

* `build_lag_df` never returns: tuple + list is a TypeError (C35).
* An ordered split raises AssertionError whenever `frac` times the number of distinct values is an integer strictly between (C32).
* TeX headers with an explicit scale returned by `adjust_headers` contain a TAB and `imes` instead of `\times` (C19).  The export
  of pandas happens to write the TAB as `\t`, so the final text is right (C99).
* The export cuts cells of more than 49 characters, so digits can be lost without notice (C101).
* A mean of more than 28 digits is printed with an error that reads at least ten times too large (C103).
* `hard_loss_decision` with infinite losses prefers an action whose infinite loss meets a label of probability 0, because `0 * inf`
  is NaN and `argmin` stops there (C102).
* `format_table` builds a ValueError without raising it for an infinite mean in an unclipped column; the assertion after it catches this (C21).
* `loss_summary_table`: equal infinite losses of a method and the reference give NaN and an AssertionError, no table (C52).
* A p-value of `significance` can be exactly 0 or 1; a p-value below `1 - confidence` does not imply that the interval excludes the
  reference (C43); the other direction holds (C42).
* Rounding can make the percentile interval lopsided: of 11 replicates at confidence 0.8 it runs from the smallest to the second largest entry,
  where exact arithmetic takes smallest and largest (C107).
* t test and t error bar disagree exactly on all-zero data (C45).
* `JustNoise` for classification fails on Boolean labels, although the checks accept them (C80).
* The floor `min_log_prob` is not a floor of the resulting table: normalisation follows it (C81).
* `JustNoise` for regression predicts standard deviation 0 for constant targets, which all losses reject; `min_std > 0` helps (C87, C88).
* Classification `just_benchmark` needs two labels and, with the default floor `-inf`, fails for every method that gives label 1
  probability 0 at some test point, even if it is right (C92); a finite floor helps.
* The area under the precision-recall-gain curve can be `-inf` (C73); with `pairwise_CI` that can make the curve table fail (C83).
* A single-class sample gives AUC 1/2 rather than an exception (C70).
* `_interp1d` with kind `'previous'` extrapolates to the right without complaint (C60); `check_curve` looks at the ends of the grid only.
* With weights of very different size `roc_curve` and `prg_curve` raise AssertionError in double precision (1e16 and 1), where exact arithmetic never
  does; `recall_precision_curve` also fails if a light negative sample has the top score before a heavy positive one (C105). The
  bootstrap weights of `curve_boot` are safe up to 3000 samples (300 for recall-precision).
* Without `pairwise_CI` `loss_summary_table` compares the mean with the clipped mean by `==`: three losses of 0.1 with limits (0, 0.1) raise
  AssertionError in double precision; limits 0, 1 and other integers are safe (C109). With `pairwise_CI` the same data give a table whose mean exceeds the limit (C108).
* `unique_take_last` rejects a repeated infinity (C57).
* A checkpoint is keyed by the state of the estimator object before training, so calling again with the same, now fitted, objects
  trains again (C90).

## 5. Properties: what is modelled, how it is proved

The full statements are in `properties.jsonl`. All theorems are for all inputs of the model; an `example` beside each group shows that
the hypotheses can be met.

### C01. Printed estimate can be read back exactly (proved)

Modelled code: `mlpaper/sciprint.py:print_estimate`, `mlpaper/sciprint.py:digit_str`, `mlpaper/constants.py:GEN_FMT`.
Proof: a separate reader of strings (strip commas, parse, digits in parentheses) is applied to the printed string; induction on base-10 digits, grouping and the position of the point.

* `C01_read_back` (`Props/Print.lean`): Reading back a printed estimate with a finite error gives exactly the shifted mean, its number of decimal places and the shifted error.
* `C01_read_back_no_error` (`Props/Print.lean`): With an infinite or NaN error the string has no parenthesis and reads back to exactly the shifted mean.

Note: Floats are exact binary rationals, decimals as in Python's decimal module without Emax/Emin.

### C02. No exponent notation, fixed alphabet, commas every three digits (proved)

Modelled code: `mlpaper/sciprint.py:print_estimate`, `mlpaper/sciprint.py:print_pval`, `mlpaper/constants.py:GEN_FMT`, `mlpaper/constants.py:ABOVE_FMT`, `mlpaper/constants.py:BELOW_FMT`.
Proof: a grammar of printed numbers in `Spec/Reader.lean`; grouping by induction from the right.

* `C02_estimate_shape` (`Props/Print.lean`): Whatever finite number `print_estimate` prints has the documented shape: optional minus, groups of three, optional fraction, optional error digits; clipped values are a mark and a number.
* `C02_alphabet` (`Props/Print.lean`): Fixed alphabet: in particular no `E`.
* `C02_pval` (`Props/Print.lean`): Whatever finite p-value `print_pval` prints is a number of the documented shape, or `<` and such a number: digits, commas, a point, nothing else (no `E`, and no minus).

Note: Floats are exact binary rationals, decimals as in Python's decimal module without Emax/Emin.

### C03. print_estimate outcome is decided by clip, then non-finite, then precision (proved)

Modelled code: `mlpaper/sciprint.py:print_estimate`, `mlpaper/sciprint.py:decimal_to_dot`.
Proof: case analysis over the branches, against an order on extended decimals defined in the specification.

* `C03_outcome` (`Props/Print.lean`): The outcome of `print_estimate` for all means, errors, shifts, clips and mappings: clipping first, then the non-finite names, then the precision check, then the error check.
* `C03_clipped_reads_back` (`Props/Print.lean`): A clipped value is printed as `>` or `<` and a number that reads back to exactly the clip limit in the shifted scale; it has no error bar.
* `C03_value_error_iff` (`Props/Print.lean`): ValueError is raised exactly when the unclipped finite mean has no units digit after the shift, also for more than 28 digits: then the shifted value is first rounded to 28 digits.

Note: Floats are exact binary rationals, decimals as in Python's decimal module without Emax/Emin.

### C04. create_decimal rounds to significant digits as documented (proved)

Modelled code: `mlpaper/sciprint.py:create_decimal`.
Proof: the value of a decimal in ℚ; rounding lemmas on natural number division; least and nearest element characterisations.

* `C04_create_decimal_ceiling` (`Props/Decimalize.lean`): (ROUND_CEILING). The result has at most `digits` digits and is the *least* number with that many significant digits that is not below the float.
* `C04_create_decimal_half_up` (`Props/Decimalize.lean`): (ROUND_HALF_UP). The result is a *nearest* number with `digits` significant digits, ties away from zero.
* `C04_create_decimal_exact` (`Props/Decimalize.lean`): A float whose exact decimal expansion fits in `digits` digits is returned unchanged (only a negative zero loses its sign).
* `C04_create_decimal_special` (`Props/Decimalize.lean`): Non-finite floats pass through; `digits = 0` is rejected.
* `C04_create_decimal_monotone` (`Props/Decimalize.lean`): Rounding is monotone in both modes.

Note: Floats are exact binary rationals, decimals as in Python's decimal module without Emax/Emin.

### C05. Error bars are never understated by decimalize (proved)

Modelled code: `mlpaper/sciprint.py:decimalize`, `mlpaper/sciprint.py:create_decimal`.
Proof: rational values of the decimals before and after rounding (C04), composed along `decimalize`.

* `C05_error_never_understated` (`Props/Decimalize.lean`): Without a limit, the printed error is the least number of `err_digits` significant digits that is not below the float error; in particular it never understates the error and overstates it by less than one unit of its last place.
* `C05_error_special` (`Props/Decimalize.lean`): Infinite and NaN errors are kept.

Note: Floats are exact binary rationals, decimals as in Python's decimal module without Emax/Emin.

### C06. p-values are never understated by decimalize and stay in [0, 1] (proved)

Modelled code: `mlpaper/sciprint.py:decimalize`.
Proof: rational values of the decimals before and after rounding (C04), composed along `decimalize`.

* `C06_pval_never_understated` (`Props/Decimalize.lean`): The Decimal p-value is the least multiple of `10^-pval_digits` that is not below the float p-value, and (being accepted) lies in `[0, 1]`.
* `C06_pval_assert_never_fails` (`Props/Decimalize.lean`): The range assertion on p-values never fails for `p` in `[0,1]` or NaN: if error and mean convert, so does the cell. (The precision must fit the 28-digit context.)
* `C06_pval_nan` (`Props/Decimalize.lean`): NaN p-values stay NaN.
* `C06_pval_rejected` (`Props/Decimalize.lean`): Finite p-values outside `(-10^-pval_digits, 1]` are rejected.
* `C06_pval_accepted` (`Props/Decimalize.lean`): Exactly which finite p-values are accepted, if error and mean convert: those in `(-10^-pval_digits, 1]` (a slightly negative value is rounded up to `-0`).

Note: Floats are exact binary rationals, decimals as in Python's decimal module without Emax/Emin.

### C07. Mean is rounded half-up to the quantum of its error bar (proved)

Modelled code: `mlpaper/sciprint.py:decimalize`, `mlpaper/sciprint.py:create_decimal`.
Proof: rational values of the decimals before and after rounding (C04), composed along `decimalize`.

* `C07_mean_half_up_to_error_quantum` (`Props/Decimalize.lean`): When the final error bar is finite and non-zero, the mean gets exactly its exponent and is the float mean rounded half-up (ties away from zero) to that quantum, so it is off by at most half a unit.
* `C07_mean_default_digits` (`Props/Decimalize.lean`): Otherwise (error zero, infinite or NaN) the mean is rounded half-up to `default_digits` significant digits.

Note: Floats are exact binary rationals, decimals as in Python's decimal module without Emax/Emin.

### C08. decimalize output always fits print_estimate's quantum requirement (proved)

Modelled code: `mlpaper/sciprint.py:decimalize`, `mlpaper/sciprint.py:print_estimate`.
Proof: rational values of the decimals before and after rounding (C04), composed along `decimalize`.

* `C08_decimalize_fits_print` (`Props/Print.lean`): Decimals produced by `decimalize` never trip the assertions of `print_estimate`: with valid clips the call either succeeds or raises the documented ValueError.

Note: Floats are exact binary rationals, decimals as in Python's decimal module without Emax/Emin.

### C09. EB_limit turns exactly the too-large errors into infinity (proved)

Modelled code: `mlpaper/sciprint.py:decimalize`, `mlpaper/sciprint.py:print_estimate`.
Proof: rational values of the decimals before and after rounding (C04), composed along `decimalize`.

* `C09_eb_limit` (`Props/Decimalize.lean`): With a limit `10^k` the error becomes infinite exactly when the rounded-up error exceeds the limit (or was infinite); otherwise it is the rounded-up error.
* `C09_no_limit` (`Props/Decimalize.lean`): A metric without a limit is never clipped.
* `C09_clipped_mean` (`Props/Decimalize.lean`): A clipped cell falls back to `default_digits` for the mean.
* `C09_clipped_no_parens` (`Props/Print.lean`): A clipped (infinite) error is printed without parentheses.

Note: Floats are exact binary rationals, decimals as in Python's decimal module without Emax/Emin.

### C10. decimalize rejects exactly the entries it cannot represent (proved)

Modelled code: `mlpaper/sciprint.py:decimalize`.
Proof: exact failure conditions of `quantize`, by case analysis on the number of digits.

* `C10_fails_iff_mean_needs_more_than_28_digits` (`Props/Decimalize.lean`): Finite mean, finite non-zero error within the limit, valid p-value: the only possible exception is InvalidOperation, raised exactly when the rounded mean needs more than 28 digits.
* `C10_ok_without_quantum` (`Props/Decimalize.lean`): If the final error bar is zero, infinite or NaN, the cell always converts (any mean, also infinite or NaN).
* `C10_infinite_mean_fails` (`Props/Decimalize.lean`): An infinite mean with a finite non-zero error within the limit raises InvalidOperation.
* `C10_negative_error_rejected` (`Props/Decimalize.lean`): A negative error (finite or infinite) raises AssertionError.
* `C10_table` (`Props/Decimalize.lean`): `decimalize` of a table succeeds exactly when at least one p-value digit is asked for and every cell converts; no p-value digit is an AssertionError. The result has the metrics in sorted order without repetition, the methods in row order, and each cell is the conversion of the cell of the same labels.

Note: Floats are exact binary rationals, decimals as in Python's decimal module without Emax/Emin.

### C11. print_pval prints '<eps' exactly at or below the quantum and the exact value otherwise (proved)

Modelled code: `mlpaper/sciprint.py:print_pval`, `mlpaper/sciprint.py:decimal_eps`.
Proof: the reader of C01 on the output of `print_pval`; for strictness, a dyadic rational equal to a power of ten is an integer multiple.

* `C11_print_pval` (`Props/Print.lean`): For a Decimal p-value in `[0,1]` with last place `10^e`: `<` and that unit when the value is at most one unit, otherwise the exact value.
* `C11_print_pval_other` (`Props/Print.lean`): NaN prints the mapped name; values outside `[0,1]` raise AssertionError (for `e ≤ 0`, as produced by `decimalize`).

Note: Floats are exact binary rationals, decimals as in Python's decimal module without Emax/Emin.

### C12. A printed '<0.0001' is a strict claim about the original float (proved)

Modelled code: `mlpaper/sciprint.py:decimalize`, `mlpaper/sciprint.py:print_pval`.
Proof: the reader of C01 on the output of `print_pval`; for strictness, a dyadic rational equal to a power of ten is an integer multiple.

* `C12_strict_bound` (`Props/Print.lean`): If `decimalize` and then `print_pval` print `<10^-k`, the float p-value was strictly smaller than `10^-k`.
* `C12_printed_not_below` (`Props/Print.lean`): Otherwise, the printed p-value is exactly the converted one and at least the float.

Note: Floats are exact binary rationals, decimals as in Python's decimal module without Emax/Emin.

### C13. get_shift_range bounds are sound and tight (proved)

Modelled code: `mlpaper/sciprint.py:get_shift_range`, `mlpaper/sciprint.py:floor_mod`, `mlpaper/sciprint.py:ceil_mod`.
Proof: integer arithmetic, minimum and maximum over lists, least element over a finite range, for every permutation that sorts by absolute value.

* `C13_shift_range` (`Props/Shift.lean`): `get_shift_range` succeeds on every non-empty list of finite decimals and modulus `m ≥ 1`; among the multiples of `m`, those that keep every estimate defined to the point are exactly those `≤ hi`, those that make some estimate at least one are (unless `small`) exactly those `≥ lo`, and `small` is reported exactly when no multiple does both.
* `C13_shift_range_rejects` (`Props/Shift.lean`): Everything else is rejected with AssertionError.

Note: Decimals as in Python's decimal module without Emax/Emin. The pandas export is in C99-C101.

### C14. find_shift returns the most compact shift, preferring small shifts (proved)

Modelled code: `mlpaper/sciprint.py:find_shift`, `mlpaper/sciprint.py:str_print_len`.
Proof: integer arithmetic, minimum and maximum over lists, least element over a finite range, for every permutation that sorts by absolute value.

* `C14_best_shift` (`Props/Shift.lean`): `find_shift` returns an admissible multiple of `m` of least width and, among those, of least absolute value -- whatever order the sort gives to equal absolute values.
* `C14_tie_order_irrelevant` (`Props/Shift.lean`): Different tie orders of the sort can only change the sign of the shift.

Note: Decimals as in Python's decimal module without Emax/Emin. The pandas export is in C99-C101.

### C15. The chosen shift always prints (proved)

Modelled code: `mlpaper/sciprint.py:find_shift`, `mlpaper/sciprint.py:print_estimate`.
Proof: integer arithmetic, minimum and maximum over lists, least element over a finite range, for every permutation that sorts by absolute value.

* `C15_chosen_shift_prints` (`Props/Shift.lean`): `find_shift` always succeeds on printable pairs, and then every pair prints with the chosen shift; an empty list gives 0.
* `C15_find_shift_rejects` (`Props/Shift.lean`): `find_shift` raises AssertionError for lists of different lengths, a mean that is not finite or a modulus below one.

Note: Decimals as in Python's decimal module without Emax/Emin. The pandas export is in C99-C101.

### C16. Padding aligns the decimal points (proved)

Modelled code: `mlpaper/sciprint.py:pad_num_str`, `mlpaper/sciprint.py:find_last_dig`.
Proof: length of the suffix after the units digit as invariant of the padding.

* `C16_padding_aligns` (`Props/Shift.lean`): On a non-empty list of strings with something before the point, `pad_num_str` succeeds, only appends pad characters, leaves the same number of characters after the units digit of every string, and leaves at least one string unpadded.
* `C16_padding_rejects` (`Props/Shift.lean`): Failures: ValueError on the empty list, AssertionError if some string has nothing before its point (or parenthesis, or end).

Note: Decimals as in Python's decimal module without Emax/Emin. The pandas export is in C99-C101.

### C17. floor_mod and ceil_mod are the nearest multiples (proved)

Modelled code: `mlpaper/sciprint.py:floor_mod`, `mlpaper/sciprint.py:ceil_mod`.
Proof: floor division on integers.

* `C17_floor_mod` (`Props/Shift.lean`): `floor_mod(x, m)` is the largest multiple of `m` that is at most `x`.
* `C17_ceil_mod` (`Props/Shift.lean`): `ceil_mod(x, m)` is the smallest multiple of `m` that is at least `x`.

Note: Decimals as in Python's decimal module without Emax/Emin. The pandas export is in C99-C101.

### C18. Headers state the true scale (proved)

Modelled code: `mlpaper/sciprint.py:adjust_headers`, `mlpaper/constants.py:_PREFIX`, `mlpaper/constants.py:_PREFIX_TEX`.
Proof: prefix factors specified separately as powers of ten; table entries by case analysis, fallback cases symbolically for all shifts and names.

* `C18_shown_name` (`Props/Header.lean`): Underscores are shown as spaces and nothing else changes.
* `C18_prefix` (`Props/Header.lean`): Estimate column with a unit, prefixes allowed, and a prefix existing for `10^-s`: the header shows that prefix in front of the unit, and no other scale.
* `C18_unitless` (`Props/Header.lean`): Estimate column without unit: the explicit exponent `s`, or nothing if `s = 0`.
* `C18_fallback` (`Props/Header.lean`): Estimate column with a unit but no usable prefix: explicit exponent `s` (nothing if `s = 0`) and the bare unit.
* `C18_pval` (`Props/Header.lean`): p columns are always `p`; a metric without a shift is an AssertionError.
* `C18_factor` (`Props/Header.lean`): The printed value times the factor of the prefix, or times `10^-s` of the explicit form `x 1e<s>`, is the unshifted value.
* `C18_headers` (`Props/Header.lean`): All headers, in order.

Note: Decimals as in Python's decimal module without Emax/Emin. The pandas export is in C99-C101.

### C19. TeX scale header contains a tab instead of \times (proved)

Modelled code: `mlpaper/sciprint.py:adjust_headers`.
Proof: prefix factors specified separately as powers of ten; table entries by case analysis, fallback cases symbolically for all shifts and names.

* `C19_tab_in_tex` (`Props/Header.lean`): Every TeX header with an explicit scale has a TAB followed by `imes` where `\times` was meant, and contains a backslash only if the metric name or the unit does.

Note: Decimals as in Python's decimal module without Emax/Emin. The pandas export is in C99-C101.

### C20. format_table uses one shift per metric and prints every entry with it (proved)

Modelled code: `mlpaper/sciprint.py:format_table`.
Proof: composition of the previous results along the loops over metrics and methods.

* `C20_format_column` (`Props/Table.lean`): Exactly when a column is formatted, and what comes out: one shift for the column (0, or the best shift of the unclipped entries), every cell printed with that shift and the column's clips, in row order, and (if asked) padded.
* `C20_metric_order` (`Props/Table.lean`): The metrics of a formatted table: each once, in sorted order.
* `C20_format_table` (`Props/Table.lean`): `format_table` formats every metric's column.

Note: Decimals as in Python's decimal module without Emax/Emin. The pandas export is in C99-C101.

### C21. format_table accepts infinite means only behind a crap limit and never NaN means (proved)

Modelled code: `mlpaper/sciprint.py:format_table`, `mlpaper/sciprint.py:find_shift`.
Proof: composition of the previous results along the loops over metrics and methods.

* `C21_nan_mean` (`Props/Table.lean`): A NaN mean always fails (with `InvalidOperation` once the p-value check passes).
* `C21_infinite_mean` (`Props/Table.lean`): An infinite mean is rejected with AssertionError unless its metric has a crap limit on that side.
* `C21_infinite_mean_clipped` (`Props/Table.lean`): An infinite mean behind a crap limit is printed as clipped at that limit.
* `C21_not_to_dot` (`Props/Table.lean`): With `shift_mod=None`, an unclipped finite mean that is not defined to the point makes formatting fail, and the error is ValueError if all rows above print.

Note: Decimals as in Python's decimal module without Emax/Emin. The pandas export is in C99-C101.

### C22. End to end: the printed cell is faithful to the float table (proved)

Modelled code: `mlpaper/sciprint.py:just_format_it`, `mlpaper/sciprint.py:decimalize`, `mlpaper/sciprint.py:format_table`.
Proof: composition of the previous results along the loops over metrics and methods.

* `C22_cell` (`Props/EndToEnd.lean`): One cell from floats to text. If it prints at all, then either the text says `>10^k`/`<-10^k` (scaled) and the float mean really is beyond that crap limit, or the text reads back (`readEst`) as a mean `v` with `places` decimals and possibly an error `E` such that: with a positive float error within the limit, `v` is within half a unit of the last place of the scaled float mean and `E` is the float error rounded up to two digits and scaled, so it exceeds the scaled float error by less than one unit of the last place; otherwise `v` is the mean rounded half-up to five digits and the error is shown as zero or not at all.
* `C22_pval_cell` (`Props/EndToEnd.lean`): The p column: `<0.0001` only for a p-value strictly below 0.0001, otherwise the p-value rounded up to four places.
* `C22_table` (`Props/EndToEnd.lean`): The whole table: when `just_format_it` gets to its export step, the columns are the metrics in sorted order; the rows of a column are the methods in order; every cell is the printed form (plus trailing spaces) of the `decimalize`d float cell with the column's one shift and limits, to which `C22_cell` and `C22_pval_cell` apply; counted from the right end of the cell, the units digit is at the same place in the whole column.

Note: Decimals as in Python's decimal module without Emax/Emin. The pandas export is in C99-C101.

### C23. remove_chars deletes exactly the listed characters (proved)

Modelled code: `mlpaper/util.py:_remove_chars_py3`, `mlpaper/sciprint.py:str_print_len`.
Proof: induction on lists; case analysis on decimals.

* `C23_remove_chars` (`Props/Shift.lean`): `remove_chars` keeps the order and deletes exactly the listed characters.
* `C23_remove_chars_unique` (`Props/Shift.lean`): The two clauses determine the result.
* `C23_str_print_len` (`Props/Shift.lean`): `str_print_len` counts the characters other than `,` and `.`.

Note: Decimals as in Python's decimal module without Emax/Emin. The pandas export is in C99-C101.

### C24. Decimal helpers mean what they say (proved)

Modelled code: `mlpaper/sciprint.py:decimal_1ek`, `mlpaper/sciprint.py:decimal_eps`, `mlpaper/sciprint.py:decimal_to_dot`, `mlpaper/sciprint.py:digit_str`, `mlpaper/sciprint.py:all_same`, `mlpaper/sciprint.py:as_tuple_chk`, `mlpaper/sciprint.py:decimal_from_tuple`.
Proof: induction on lists; case analysis on decimals.

* `C24_decimal_helpers` (`Props/Print.lean`): Meaning of the small Decimal helpers.
* `C24_all_same` (`Props/Print.lean`): `all_same` holds exactly when any two elements are equal.

Note: Decimals as in Python's decimal module without Emax/Emin. The pandas export is in C99-C101.

### C25. split_df partitions the rows (proved)

Modelled code: `mlpaper/data_splitter.py:split_df`.
Proof: rows as lists, masks as Boolean lists; induction over the splits.

* `C25_partition` (`Props/SplitDf.lean`): `split_df` assigns every row of the frame to exactly one side, and the three frames returned are the rows of their side in the original order with all their columns; the row counts add up.
* `C25_total` (`Props/SplitDf.lean`): `split_df` succeeds whenever every column split does: no internal assertion can fail on a non-empty frame without a column called `INDEX`.

Note: Random choices are parameters; products and quotients are rounded by an arbitrary monotone rounding where stated, otherwise exact.

### C26. split_df is the conjunction over split columns and order independent (proved)

Modelled code: `mlpaper/data_splitter.py:split_df`.
Proof: rows as lists, masks as Boolean lists; induction over the splits.

* `C26_conjunction` (`Props/SplitDf.lean`): with `ms` the masks the column splits return, train is the rows that every mask puts in train, test the rows that no mask puts in train, and unused the rest.
* `C26_order_independent` (`Props/SplitDf.lean`): the order of the entries of `splits` does not matter.

Note: Random choices are parameters; products and quotients are rounded by an arbitrary monotone rounding where stated, otherwise exact.

### C27. A single split leaves nothing unused (proved)

Modelled code: `mlpaper/data_splitter.py:split_df`.
Proof: rows as lists, masks as Boolean lists; induction over the splits.

* `C27_single` (`Props/SplitDf.lean`): with a single split nothing is unused; train is the rows its mask marks, test the others.
* `C27_default_split` (`Props/SplitDf.lean`): the default split of a frame whose index has no nulls and no repeated labels: nothing is unused and train has `frac * len(df)` rows, rounded up.

Note: Random choices are parameters; products and quotients are rounded by an arbitrary monotone rounding where stated, otherwise exact.

### C28. Random subsets and masks have exactly the rounded-up size (proved)

Modelled code: `mlpaper/data_splitter.py:rand_subset`, `mlpaper/data_splitter.py:rand_mask`.
Proof: the permutation drawn is a parameter; counting; the product is rounded by an arbitrary monotone rounding that keeps integers.

* `C28_rand_subset` (`Props/RandomSplit.lean`): `rand_subset(x, frac)` never fails on a non-empty list and a fraction in `[0,1]`; the result consists of the entries at distinct positions of `x`, and their number is `frac * len(x)` (as computed, with any monotone rounding that is exact on integers) rounded up.
* `C28_rand_subset_size` (`Props/RandomSplit.lean`): Exact arithmetic: the size is the least integer that is at least `frac : len(x)`.
* `C28_every_subset_possible` (`Props/RandomSplit.lean`): every choice of distinct positions of the right number is a possible outcome.
* `C28_rand_mask` (`Props/RandomSplit.lean`): `rand_mask(n, frac)` never fails for `n > 0` and a fraction in `[0,1]`; it has `n` entries, of which exactly `frac * n` rounded up are True, namely those drawn.
* `C28_empty` (`Props/RandomSplit.lean`): choosing from nothing raises `ValueError`.

Note: Random choices are parameters; products and quotients are rounded by an arbitrary monotone rounding where stated, otherwise exact.

### C29. Random splits never separate equal values (proved)

Modelled code: `mlpaper/data_splitter.py:random_split_series`.
Proof: the permutation drawn is a parameter; counting; the product is rounded by an arbitrary monotone rounding that keeps integers.

* `C29_random_split` (`Props/RandomSplit.lean`): a random split without the uniqueness hint never fails on a non-empty series without nulls and a fraction in `[0,1]`. A set of `frac * u` (rounded up) of the `u` distinct values is train, and a row is train exactly when its value is in that set.
* `C29_equal_values` (`Props/RandomSplit.lean`): equal values get the same side.

Note: Random choices are parameters; products and quotients are rounded by an arbitrary monotone rounding where stated, otherwise exact.

### C30. assume_unique does not change a random split of unique data (proved)

Modelled code: `mlpaper/data_splitter.py:random_split_series`, `mlpaper/data_splitter.py:rand_mask`, `mlpaper/data_splitter.py:rand_subset`.
Proof: the permutation drawn is a parameter; counting; the product is rounded by an arbitrary monotone rounding that keeps integers.

* `C30_assume_unique` (`Props/RandomSplit.lean`): on data without repeated values the uniqueness hint does not change the outcome, for any fraction, including which error is raised.

Note: Random choices are parameters; products and quotients are rounded by an arbitrary monotone rounding where stated, otherwise exact.

### C31. Ordered splits are a closed lower set and err towards train (proved)

Modelled code: `mlpaper/data_splitter.py:ordered_split_series`.
Proof: sorted list of distinct values and order statistics; a rounding function as parameter, exact arithmetic as corollary.

* `C31_ordered_split` (`Props/OrderedSplit.lean`): when `ordered_split_series` succeeds there is a value of the series such that train is exactly the rows with at most that value. The share of distinct values in train is at least `frac`; without the largest train value it would be below `frac`; with `frac = 0` only the minimum is train. (Shares are the rounded quotients the code computes; `rnd = id` gives exact shares.)
* `C31_exact_size` (`Props/OrderedSplit.lean`): Exact arithmetic: the number of distinct values in train is `frac : u` rounded up, but at least one.
* `C31_hints` (`Props/OrderedSplit.lean`): true hints do not change the result: uniqueness for data without repetitions, both hints for strictly increasing data, and the sortedness hint alone never matters.

Note: Random choices are parameters; products and quotients are rounded by an arbitrary monotone rounding where stated, otherwise exact.

### C32. Ordered splits abort when the fraction is hit exactly (proved)

Modelled code: `mlpaper/data_splitter.py:ordered_split_series`.
Proof: sorted list of distinct values and order statistics; a rounding function as parameter, exact arithmetic as corollary.

* `C32_ordered_fails_iff` (`Props/OrderedSplit.lean`): Any rounding for which `frac` is representable: the split of a non-empty series fails exactly when the pivot position `k = min(int(frac: u), u-1)` is positive and the share `k/u` of the values before the pivot already reaches `frac`; otherwise a mask is returned.
* `C32_ordered_exact_hit` (`Props/OrderedSplit.lean`): with exact arithmetic the split of a non-empty series with `u` distinct values raises `AssertionError` exactly when `frac * u` is an integer strictly between `0` and `u`.

Note: Random choices are parameters; products and quotients are rounded by an arbitrary monotone rounding where stated, otherwise exact.

### C33. Linear splits cut at the interpolated point (proved)

Modelled code: `mlpaper/data_splitter.py:linear_split_series`.
Proof: sorted list of distinct values and order statistics; a rounding function as parameter, exact arithmetic as corollary.

* `C33_linear_rounded` (`Props/LinearSplit.lean`): with any rounding a linear split of finite numbers succeeds and cuts at a point between the smallest and the largest value, so all minima are in train.
* `C33_linear` (`Props/LinearSplit.lean`): with exact arithmetic a linear split of finite numbers succeeds and puts in train exactly the rows whose value is at most `(1-frac)*min + frac*max`.
* `C33_linear_consequences` (`Props/LinearSplit.lean`): the minimum is in train; `frac = 1` puts everything in train, `frac = 0` only the minima; train grows with `frac`.
* `C33_hint` (`Props/LinearSplit.lean`): on data in increasing order the sortedness hint does not change the result (any rounding).

Note: Random choices are parameters; products and quotients are rounded by an arbitrary monotone rounding where stated, otherwise exact.

### C34. Splitters reject bad input (proved)

Modelled code: `mlpaper/data_splitter.py:split_df`, `mlpaper/data_splitter.py:rand_subset`, `mlpaper/data_splitter.py:ordered_split_series`, `mlpaper/data_splitter.py:linear_split_series`.
Proof: sorted list of distinct values and order statistics; a rounding function as parameter, exact arithmetic as corollary.

* `C34_linear_split` (`Props/LinearSplit.lean`): nulls and fractions outside `[0,1]` are rejected.
* `C34_linear_infinite` (`Props/LinearSplit.lean`): an infinite value makes the minimum or the maximum infinite and is rejected.
* `C34_linear_infinite_sorted` (`Props/LinearSplit.lean`): with the sortedness hint only the first and the last value are looked at.
* `C34_linear_empty` (`Props/LinearSplit.lean`): an empty series is an error of numpy, not an assertion.
* `C34_ordered_split` (`Props/OrderedSplit.lean`): `ordered_split_series` rejects nulls and fractions outside `[0,1]`.
* `C34_ordered_split_empty` (`Props/OrderedSplit.lean`): so is an empty series.
* `C34_rand_bad_frac` (`Props/RandomSplit.lean`): a fraction outside `[0,1]` is rejected by `rand_subset` and `rand_mask`.
* `C34_random_split` (`Props/RandomSplit.lean`): `random_split_series` rejects nulls and fractions outside `[0,1]`.
* `C34_split_df_assert` (`Props/SplitDf.lean`): `split_df` rejects empty splits, an empty frame and a column called `INDEX`.
* `C34_split_df_propagates` (`Props/SplitDf.lean`): the first column split that fails makes `split_df` fail with the same error.
* `C34_split_df_key_error` (`Props/SplitDf.lean`): an unknown split type or, with a known type, an unknown column is a `KeyError`.

Note: Random choices are parameters; products and quotients are rounded by an arbitrary monotone rounding where stated, otherwise exact.

### C35. build_lag_df always raises TypeError on Python 3 (proved)

Modelled code: `mlpaper/data_splitter.py:build_lag_df`.
Proof: the model reaches the TypeError on every path that does not raise KeyError; the frame built before it (lagFrame) is compared with the documented layout row by row.

* `C35_build_lag_df` (`Props/SplitDf.lean`): `build_lag_df` never returns. It raises `TypeError` when all requested features are columns, `KeyError` otherwise.
* `C35_lag_frame` (`Props/SplitDf.lean`): what `build_lag_df` has computed when line 64 fails. It is the frame that its documentation describes: every column at lag 0 and, for each lag `k` in `1, ..., n_lags - 1` and each requested feature, a column whose row `i` is row `i - stride * k` of that feature, missing where there is no such row.

Note: Random choices are parameters; products and quotients are rounded by an arbitrary monotone rounding where stated, otherwise exact.

### C36. Bootstrap weights are resampling (proved)

Modelled code: `mlpaper/boot_util.py:boot_weights`, `mlpaper/mlpaper.py:_boot_EB_and_test`.
Proof: weights turned into a resample by replication.

* `C36_weights` (`Props/Boot.lean`): for every multinomial outcome the weights with `epsilon = 0` are the counts themselves: one row of `N` non-negative integers summing to `N` for each replicate.
* `C36_floor` (`Props/Boot.lean`): with a floor `epsilon` every weight is at least `epsilon` and at least the count.
* `C36_reject` (`Props/Boot.lean`): a number of points or replicates below 1 is rejected.
* `C36_resample` (`Props/Boot.lean`): a weighted mean is the mean of a resample of the same size: a list of `N` entries of the data, in which point `i` occurs as often as its weight says; hence it lies between the smallest and the largest data point.

Note: Finite floats are exact (no rounding error); special values follow IEEE. Bootstrap draws are parameters: every outcome is covered.

### C37. confidence_to_percentiles is symmetric (proved)

Modelled code: `mlpaper/boot_util.py:confidence_to_percentiles`.
Proof: counting lemmas for order statistics; percentile positions as floor and ceiling.

* `C37_percentiles` (`Props/Boot.lean`): the two percentiles are symmetric about 50 and `100 * confidence` apart.
* `C37_reject` (`Props/Boot.lean`): every confidence that is not a number strictly between 0 and 1 is rejected.

Note: Finite floats are exact (no rounding error); special values follow IEEE. Bootstrap draws are parameters: every outcome is covered.

### C38. Percentile intervals are ordered sample values with enough coverage (proved)

Modelled code: `mlpaper/boot_util.py:percentile`.
Proof: counting lemmas for order statistics; percentile positions as floor and ceiling.

* `C38_percentile` (`Props/Boot.lean`): on a non-empty sample without NaN the interval ends are sample values in order, namely the `k`-th smallest and the `k`-th largest for `k = floor((1-c)/2 * (n-1))`, and at least a share `c` of the sample lies between them.
* `C38_order` (`Props/Boot.lean`): the interval does not depend on the order of the sample.
* `C38_reject` (`Props/Boot.lean`): NaN in the sample, or a bad confidence, is rejected; an empty sample is an `IndexError`.

Note: Finite floats are exact (no rounding error); special values follow IEEE. Bootstrap draws are parameters: every outcome is covered.

### C39. Higher confidence gives a wider interval and larger error bar (proved)

Modelled code: `mlpaper/boot_util.py:percentile`, `mlpaper/boot_util.py:error_bar`.
Proof: counting lemmas for order statistics; percentile positions as floor and ceiling.

* `C39_nested` (`Props/Boot.lean`): a higher confidence gives an interval that contains the one of the lower confidence.
* `C39_error_bar` (`Props/Boot.lean`): a higher confidence gives a larger error bar around a finite estimate.

Note: Finite floats are exact (no rounding error); special values follow IEEE. Bootstrap draws are parameters: every outcome is covered.

### C40. error_bar is the same for percentile and basic intervals and is tight (proved)

Modelled code: `mlpaper/boot_util.py:error_bar`, `mlpaper/boot_util.py:basic`.
Proof: counting lemmas for order statistics; percentile positions as floor and ceiling.

* `C40_error_bar` (`Props/Boot.lean`): `error_bar` returns the larger distance from the estimate to the interval ends, for every sample (possibly with infinities) and every estimate: its assertions never fail.
* `C40_finite` (`Props/Boot.lean`): for a finite sample and estimate the error bar is a number `e ≥ 0`; `estimate ± e` contains the percentile and the basic interval, touches an end of each, and the basic interval gives the same error bar.

Note: Finite floats are exact (no rounding error); special values follow IEEE. Bootstrap draws are parameters: every outcome is covered.

### C41. significance is a two-sided p-value (proved)

Modelled code: `mlpaper/boot_util.py:significance`.
Proof: counting lemmas for order statistics; percentile positions as floor and ceiling.

* `C41_scalar_is_constant` (`Props/Boot.lean`): A scalar reference is the same as a constant vector.
* `C41_scalar` (`Props/Boot.lean`): the value against a number: twice the smaller of the shares of the sample on either side (ties count on both), at most 1.
* `C41_paired` (`Props/Boot.lean`): the value of a paired test.
* `C41_swap` (`Props/Boot.lean`): swapping the sample and a paired reference.
* `C41_negate` (`Props/Boot.lean`): negating sample and reference.
* `C41_shift` (`Props/Boot.lean`): adding a number to sample and reference.
* `C41_order` (`Props/Boot.lean`): the order of the (sample, reference) pairs does not matter.
* `C41_difference` (`Props/Boot.lean`): for finite numbers the paired test is the test of the differences against 0.
* `C41_zero` (`Props/Boot.lean`): the p-value is 0 exactly when the whole sample is strictly on one side of the reference.
* `C41_reject` (`Props/Boot.lean`): NaN anywhere, or a reference of another length, is rejected.

Note: Finite floats are exact (no rounding error); special values follow IEEE. Bootstrap draws are parameters: every outcome is covered.

### C42. A reference outside the confidence interval is significant (proved)

Modelled code: `mlpaper/boot_util.py:percentile`, `mlpaper/boot_util.py:significance`.
Proof: counting lemmas for order statistics; percentile positions as floor and ceiling.

* `C42_outside_significant` (`Props/Boot.lean`): a reference strictly outside the percentile interval has a p-value below `1 - confidence`.

Note: Finite floats are exact (no rounding error); special values follow IEEE. Bootstrap draws are parameters: every outcome is covered.

### C43. The converse coherence can fail (proved)

Modelled code: `mlpaper/boot_util.py:percentile`, `mlpaper/boot_util.py:significance`.
Proof: counting lemmas for order statistics; percentile positions as floor and ceiling.

* `C43_converse_bound` (`Props/Boot.lean`): with a p-value of at most `(1-c)*(n-1)/n` the reference is strictly outside the interval.
* `C43_converse_fails` (`Props/Boot.lean`): the plain converse of C42 is false: ten values, confidence 0.58, a reference inside the interval with p-value 0.4 < 0.42.

Note: Finite floats are exact (no rounding error); special values follow IEEE. Bootstrap draws are parameters: every outcome is covered.

### C44. clip_EB keeps error bars between the minimum and the trivial bar (proved)

Modelled code: `mlpaper/mlpaper.py:clip_EB`.
Proof: case analysis on the special values.

* `C44_value_error` (`Props/ClipEB.lean`): for limits that make sense, a minimum `b` and an estimate that is not NaN: the estimate must be inside the limits and the minimum at most half of the range, otherwise ValueError.
* `C44_reject` (`Props/ClipEB.lean`): the limits must make sense and the minimum must be a non-negative number.
* `C44_clip` (`Props/ClipEB.lean`): the clipped bar lies between the minimum and the trivial bar, keeps a bar that is already there, covers every value allowed by the limits that the old bar covered, and clipping again changes nothing. A NaN bar stays NaN.
* `C44_nan_estimate` (`Props/ClipEB.lean`): a NaN estimate passes the checks; the bar is then only raised to the minimum.
* `C44_infinite_estimate` (`Props/ClipEB.lean`): an infinite estimate is inside the limits only if the limit on that side is infinite too; then no bar is too long, and it is only raised to the minimum.

Note: Finite floats are exact (no rounding error); special values follow IEEE. Bootstrap draws are parameters: every outcome is covered.

### C45. t-test and t error bar agree (proved)

Modelled code: `mlpaper/mlpaper.py:t_test`, `mlpaper/mlpaper.py:t_EB`.
Proof: real analysis with an abstract distribution function and its inverse; Student's t distribution constructed with Mathlib's integrals.

* `C45_uninformative` (`Props/TTest.lean`): with fewer than two points or an infinite point both functions are uninformative; NaN is rejected by both, a confidence outside (0,1) by `t_EB`.
* `C45_t_test` (`Props/TTest.lean`): the p-value of at least two numbers. Not all equal: `2*(1-F(|mean|/stderr))`. All equal to a number other than 0: 0. All zero: 1.
* `C45_t_EB` (`Props/TTest.lean`): the error bar of at least two numbers: the quantile at `(1+c)/2` times the standard error.
* `C45_agree` (`Props/TTest.lean`): test and error bar agree: `p ≤ 1 - c` exactly when 0 is not strictly inside the interval, unless all values are 0.
* `C45_zero` (`Props/TTest.lean`): all zero data is the one exception: the bar is 0, 0 is inside, and p is 1.
* `C45_mono` (`Props/TTest.lean`): the bar grows with the confidence.
* `C45_student` (`Props/TTest.lean`): the agreement for Student's t distribution itself, without assumptions on a reference distribution.

Note: Finite floats are exact (no rounding error); special values follow IEEE. The reference distribution is abstract (symmetric, continuous, strictly increasing); C45_student is for Student's t distribution itself.

### C46. Bernstein test and error bar agree (proved)

Modelled code: `mlpaper/mlpaper.py:bernstein_test`, `mlpaper/mlpaper.py:bernstein_EB`.
Proof: solution of the quadratic equation in the square root of the exponent; monotonicity.

* `C46_agree` (`Props/Bernstein.lean`): test and error bar agree: `p ≤ 1 - c` exactly when 0 is not strictly inside the interval.

Note: Finite floats are exact (no rounding error); special values follow IEEE.

### C47. Bernstein bounds are in range and monotone (proved)

Modelled code: `mlpaper/mlpaper.py:bernstein_test`, `mlpaper/mlpaper.py:bernstein_EB`.
Proof: solution of the quadratic equation in the square root of the exponent; monotonicity.

* `C47_bernstein_test` (`Props/Bernstein.lean`): for at least two numbers within limits of finite positive range, no assertion of `bernstein_test` fails and the p-value is `min(1, 3*exp(-B))`, where `B ≥ 0` is the solution of `std*sqrt(2B/N) + 3*B*R/N = |mean|`.
* `C47_bernstein_EB` (`Props/Bernstein.lean`): the error bar of at least two numbers within finite limits.
* `C47_mono` (`Props/Bernstein.lean`): the bar grows with the confidence.
* `C47_degenerate` (`Props/Bernstein.lean`): too few or infinite points, or a range of zero or infinity: p is 1; the bar is the range for too few or infinite points, and infinite for an infinite range.
* `C47_reject` (`Props/Bernstein.lean`): NaN data, data outside the limits, bad limits and a bad confidence are rejected.

Note: Finite floats are exact (no rounding error); special values follow IEEE.

### C48. Bootstrap error bar and test share their weights (proved)

Modelled code: `mlpaper/mlpaper.py:_boot_EB_and_test`, `mlpaper/mlpaper.py:boot_EB`, `mlpaper/mlpaper.py:boot_test`.
Proof: composition; sums invariant under permutations; case analysis on special values.

* `C48_shared` (`Props/Summary.lean`): for at least two numbers and any outcome of the draws: the error bar is `error_bar` of the resampled means around the mean, the p-value is their `significance` against 0, and the interval is their `percentile` interval, all from the same draws; `boot_EB` and `boot_test` return the same numbers.
* `C48_uninformative` (`Props/Summary.lean`): too little or infinite data gives the uninformative values (whatever the confidence); NaN data is rejected.

Note: Finite floats are exact (no rounding error); special values follow IEEE.

### C49. The three summary entry points agree (proved)

Modelled code: `mlpaper/mlpaper.py:get_mean_and_EB`, `mlpaper/mlpaper.py:get_test`, `mlpaper/mlpaper.py:get_mean_EB_test`.
Proof: composition; sums invariant under permutations; case analysis on special values.

* `C49_agree` (`Props/Summary.lean`): the combined call returns `(mu, EB, p)` exactly when `get_mean_and_EB` returns `(mu, EB)` and `get_test` returns `p`, for the same data, options and random outcome; so it fails exactly when one of them fails.
* `C49_reject` (`Props/Summary.lean`): data outside the limits is rejected by both entry points with error bars.
* `C49_dispatch` (`Props/Summary.lean`): `get_test` runs the test of the named method.

Note: Finite floats are exact (no rounding error); special values follow IEEE.

### C50. Reported mean respects the limits and the error bar is never wider than trivial (proved)

Modelled code: `mlpaper/mlpaper.py:get_mean_and_EB`, `mlpaper/mlpaper.py:clip_EB`.
Proof: composition; sums invariant under permutations; case analysis on special values.

* `C50_mean_and_EB` (`Props/Summary.lean`): for finite data within the limits, every method returns the exact average, which is within the limits, and a bar between the minimum and the trivial bar.
* `C50_bar_value` (`Props/Summary.lean`): the bars of the three methods in numbers: the method's own bar, cut at the trivial bar and raised to the minimum.
* `C50_reject` (`Props/Summary.lean`): an unknown method name is rejected, and so is an empty sample.

Note: Finite floats are exact (no rounding error); special values follow IEEE.

### C51. loss_summary_table cells (proved)

Modelled code: `mlpaper/mlpaper.py:loss_summary_table`.
Proof: composition; sums invariant under permutations; case analysis on special values.

* `C51_cells` (`Props/LossTable.lean`): every cell of the table is what it should be; there is one row of cells for each metric and one cell for each method.
* `C51_p_missing` (`Props/LossTable.lean`): the p-value is missing (NaN) exactly in the row of the reference method, otherwise it is a number in [0,1].
* `C51_mean_unaffected` (`Props/LossTable.lean`): the means do not depend on the options, the reference, the limits or the random draws.
* `C51_finite_mean` (`Props/LossTable.lean`): for finite losses the mean is the ordinary average.

Note: Finite floats are exact (no rounding error); special values follow IEEE.

### C52. loss_summary_table rejects cheating and otherwise succeeds on finite losses (proved)

Modelled code: `mlpaper/mlpaper.py:loss_summary_table`.
Proof: composition; sums invariant under permutations; case analysis on special values.

* `C52_reject` (`Props/LossTable.lean`): a NaN loss of any method, or a loss outside the limits of its metric, and there is no table.
* `C52_reject_cell` (`Props/LossTable.lean`): the exception for such a cell is an AssertionError.
* `C52_success` (`Props/LossTable.lean`): with all losses finite and within the limits, at least one row, a known method and a confidence in (0,1), the table is produced.
* `C52_same_infinity` (`Props/LossTable.lean`): if a method and the reference have the same infinite loss on the same row, the comparison is rejected and there is no table.

Note: Finite floats are exact (no rounding error); special values follow IEEE.

### C53. Row order does not matter (proved)

Modelled code: `mlpaper/mlpaper.py:loss_summary_table`.
Proof: composition; sums invariant under permutations; case analysis on special values.

* `C53_row_order` (`Props/LossTable.lean`): the order of the rows does not matter. For the bootstrap the random counts belong to data points, so they are reordered too; for the other methods the draws are irrelevant.

Note: Finite floats are exact (no rounding error); special values follow IEEE.

### C54. one_hot is the one-hot encoding (proved)

Modelled code: `mlpaper/util.py:one_hot`.
Proof: induction on lists; real exponentials and logarithms; Mathlib's interval integrals for the area.

* `C54_one_hot` (`Props/OneHot.lean`): for good labels the result has one row for each label and `n` columns, with True exactly in the column of the label.
* `C54_reject` (`Props/OneHot.lean`): anything else raises AssertionError.

Note: Finite floats are exact (no rounding error); special values follow IEEE.

### C55. normalize makes each row a distribution and nothing else (proved)

Modelled code: `mlpaper/util.py:normalize`.
Proof: induction on lists; real exponentials and logarithms; Mathlib's interval integrals for the area.

* `C55_normalize` (`Props/Normalize.lean`): every proper row becomes a probability distribution by subtracting one constant from all its entries, so the differences and the ranking within the row stay.
* `C55_unique` (`Props/Normalize.lean`): there is only one such constant.
* `C55_shift_invariant` (`Props/Normalize.lean`): the first row normalises to the second; adding constants to rows does not change the result.
* `C55_fixed` (`Props/Normalize.lean`): rows that are distributions stay, in particular `normalize` is idempotent.
* `C55_idempotent` (`Props/`): 
* `C55_improper` (`Props/Normalize.lean`): what happens to improper rows. All `-inf`, or some NaN: everything becomes NaN. Some `+inf`: NaN in these places.
* `C55_reject` (`Props/Normalize.lean`): a matrix without columns is rejected.

Note: Finite floats are exact (no rounding error); special values follow IEEE.

### C56. epsilon_noise preserves order (proved)

Modelled code: `mlpaper/util.py:epsilon_noise`.
Proof: induction on lists; real exponentials and logarithms; Mathlib's interval integrals for the area.

* `C56_noise` (`Props/Noise.lean`): for finite data and draws in [0,1), every entry moves by at most half of `maxEps` and at most half of every gap between two different values (half of `defaultEps` if all values are equal), the strict order is kept, and if the draws are all different so are the results.
* `C56_reject` (`Props/Noise.lean`): non-finite data, or a maximum that is not positive, is rejected.

Note: Finite floats are exact (no rounding error); special values follow IEEE.

### C57. unique_take_last keeps the last of each run (proved)

Modelled code: `mlpaper/util.py:unique_take_last`.
Proof: induction on lists; real exponentials and logarithms; Mathlib's interval integrals for the area.

* `C57_take_last` (`Props/Unique.lean`): for sorted points the result is the increasing list of the distinct values, each with the auxiliary entry of its last occurrence; without auxiliary list the points are the same.
* `C57_reject` (`Props/Unique.lean`): unsorted points (or NaN, or a repeated infinity) raise AssertionError, and so does an auxiliary list of another length.

Note: Finite floats are exact (no rounding error); special values follow IEEE.

### C58. cummax_strict is the least strictly increasing majorant (proved)

Modelled code: `mlpaper/util.py:cummax_strict`.
Proof: induction on lists; real exponentials and logarithms; Mathlib's interval integrals for the area.

* `C58_strict` (`Props/Unique.lean`): a returned list is strictly increasing and nowhere below the input.
* `C58_least` (`Props/Unique.lean`): whenever some strictly increasing list of floats lies above the input, the call succeeds, and its result is pointwise below that list. So the result is the least such list.
* `C58_unchanged` (`Props/Unique.lean`): a list that is strictly increasing already stays as it is.
* `C58_reject` (`Props/Unique.lean`): with at least two entries, AssertionError means that there is no strictly increasing list of floats above the input (a NaN, or no room below `+inf`).

Note: The successor function on floats is abstract, so the theorems also hold for the real nextafter.

### C59. eval_step_func evaluates the right-continuous step function (proved)

Modelled code: `mlpaper/util.py:eval_step_func`.
Proof: induction on lists; real exponentials and logarithms; Mathlib's interval integrals for the area.

* `C59_step` (`Props/Step.lean`): for distinct step points, each grid point gets the value of the largest step point at or below it, or `ival` if there is none.
* `C59_duplicate` (`Props/Step.lean`): a repeated step point raises AssertionError unless the check is switched off.
* `C59_before` (`Props/Step.lean`): without an initial value, a grid point before the first step (or NaN) raises AssertionError, and IndexError when there are no steps at all.
* `C59_shape` (`Props/Step.lean`): steps and values of different length raise AssertionError.
* `C59_order` (`Props/Step.lean`): listing the same steps in another order gives the same answer, error included.

Note: Finite floats are exact (no rounding error); special values follow IEEE.

### C60. Interpolation stays between neighbours and hits the points (proved)

Modelled code: `mlpaper/util.py:_interp1d`.
Proof: induction on lists; real exponentials and logarithms; Mathlib's interval integrals for the area.

* `C60_previous` (`Props/Interp.lean`): with kind `'previous'`, each grid point gets the value of the last curve point at or before it, however far beyond the end of the curve it is.
* `C60_previous_reject` (`Props/Interp.lean`): with kind `'previous'`, a grid point before the curve (or NaN) raises AssertionError.
* `C60_next` (`Props/Interp.lean`): kind `'next'` raises NotImplementedError.
* `C60_reject` (`Props/Interp.lean`): a curve with fewer than two points, lists of different length, or points out of order raise AssertionError for every kind.
* `C60_linear` (`Props/Interp.lean`): with kind `'linear'`, each grid point inside the curve gets its value on the broken line through the points.
* `C60_linear_outside` (`Props/Interp.lean`): with kind `'linear'`, a grid point before the first or beyond the last curve point raises ValueError.
* `C60_between` (`Props/Interp.lean`): at `v` the broken line lies between the values of two neighbouring points, one at or before `v` and one at or after it (the same point twice at the end) …
* `C60_through` (`Props/Interp.lean`): … and passes through the points, the last one where several have the same x.

Note: Finite floats are exact (no rounding error); special values follow IEEE.

### C61. area is the integral of the interpolated curve (proved)

Modelled code: `mlpaper/util.py:area`.
Proof: induction on lists; real exponentials and logarithms; Mathlib's interval integrals for the area.

* `C61_area` (`Props/Area.lean`): for finite curves of at least two points, `area` is, row by row, the sum over the pieces of the width times the left value (`'previous'`) or of the trapezoid (`'linear'`).
* `C61_split` (`Props/Area.lean`): splitting a curve at one of its points splits the area.
* `C61_insert` (`Props/Area.lean`): inserting a point of the interpolated curve does not change the area.
* `C61_linear_in_y` (`Props/Area.lean`): the area is linear in the heights …
* `C61_bounds` (`Props/Area.lean`): … and lies between the smallest and the largest height times the width.
* `C61_reject` (`Props/Area.lean`): NaN anywhere, fewer than two columns or different shapes raise AssertionError.
* `C61_kind` (`Props/Area.lean`): for well-formed curves every other kind raises NotImplementedError.
* `C61_zero_width` (`Props/Area.lean`): with kind `'previous'`, a piece of zero width counts nothing, whatever its height — even an infinite one.
* `C61_integral_previous` (`Props/Area.lean`): the area with kind `'previous'` is the integral of the function that `interp1d` evaluates.
* `C61_integral_linear` (`Props/Area.lean`): the area with kind `'linear'` is the integral of the function that `interp1d` evaluates.

Note: Finite floats are exact (no rounding error); special values follow IEEE.

### C62. clip_chk clips and only tolerates negligible clipping (proved)

Modelled code: `mlpaper/util.py:clip_chk`.
Proof: induction on lists; real exponentials and logarithms; Mathlib's interval integrals for the area.

* `C62_clip_chk` (`Props/OneHot.lean`): the result is the entrywise clip, and AssertionError is raised exactly when some entry is outside the limits without being close to one of them (NaN is never accepted).
* `C62_scalar` (`Props/OneHot.lean`): The scalar version is the array version on one entry.

Note: Finite floats are exact (no rounding error); special values follow IEEE.

### C63. Curve counts are threshold counts (proved)

Modelled code: `mlpaper/perf_curves.py:_binary_clf_curve`.
Proof: the cumulative sums over the (stably) sorted samples are refined to counts above thresholds.

* `C63_counts` (`Props/Curves.lean`): With both classes present, the thresholds are `+inf` and the distinct scores in decreasing order, and the counts are the total weights of the negative and positive samples with at least that score.
* `C63_counts_any` (`Props/Curves.lean`): Any labels: If a class is missing its count is `1e-10` times the count of the other one.
* `C63_reject` (`Props/Curves.lean`): Invalid input: Anything but finite scores, as many as there are labels, at least one of them, and at least one row of finite positive weights if weights are given, is rejected.

Note: Finite floats are exact (no rounding error); special values follow IEEE. The sort is stable as in the code; C65 shows that the order of the samples does not matter.

### C64. Curves are monotone with correct end points and no internal assertion fails (proved)

Modelled code: `mlpaper/perf_curves.py:_binary_clf_curve`, `mlpaper/perf_curves.py:roc_curve`, `mlpaper/perf_curves.py:recall_precision_curve`, `mlpaper/perf_curves.py:prg_curve`.
Proof: the cumulative sums over the (stably) sorted samples are refined to counts above thresholds.

* `C64_roc` (`Props/CurveLaws.lean`): Roc curve: For every valid input `roc_curve` succeeds: false and true positive rate at the thresholds, to be interpolated linearly.
* `C64_recall_precision` (`Props/CurveLaws.lean`): Recall-precision curve: For every valid input `recall_precision_curve` succeeds.
* `C64_prg` (`Props/CurveLaws.lean`): Precision-recall-gain curve: For every valid input `prg_curve` succeeds.
* `C64_rises` (`Props/CurveLaws.lean`): End points and monotonicity: Every row of the ROC curve goes from (0, 0) to (1, 1) and never down, and the recall of the recall-precision curve goes up from 0 to 1.

Note: Finite floats are exact (no rounding error); special values follow IEEE. The sort is stable as in the code; C65 shows that the order of the samples does not matter.

### C65. Curves do not depend on sample order (proved)

Modelled code: `mlpaper/perf_curves.py:_binary_clf_curve`.
Proof: the cumulative sums over the (stably) sorted samples are refined to counts above thresholds.

* `C65_counts` (`Props/CurveLaws.lean`): Counts: Labels, scores and weight columns in another order give the same counts and thresholds, also for invalid input.
* `C65_curves` (`Props/CurveLaws.lean`): Labels, scores and weight columns in another order give the same curves.

Note: Finite floats are exact (no rounding error); special values follow IEEE. The sort is stable as in the code; C65 shows that the order of the samples does not matter.

### C66. Curves depend on scores only through their ranking (proved)

Modelled code: `mlpaper/perf_curves.py:roc_curve`, `mlpaper/perf_curves.py:recall_precision_curve`, `mlpaper/perf_curves.py:prg_curve`.
Proof: the cumulative sums over the (stably) sorted samples are refined to counts above thresholds.

* `C66_counts` (`Props/CurveLaws.lean`): Counts: Replacing the scores by strictly increasing functions of them does not change the counts, and the thresholds are mapped by the function.
* `C66_curves` (`Props/CurveLaws.lean`): Replacing the scores by strictly increasing functions of them does not change the curves, and the thresholds are mapped by the function.

Note: Finite floats are exact (no rounding error); special values follow IEEE. The sort is stable as in the code; C65 shows that the order of the samples does not matter.

### C67. Integer weights are replication and scale does not matter (proved)

Modelled code: `mlpaper/perf_curves.py:_binary_clf_curve`.
Proof: the cumulative sums over the (stably) sorted samples are refined to counts above thresholds.

* `C67_replicate` (`Props/CurveLaws.lean`): Replication: Positive integer weights give the counts of the unweighted data set in which every sample is repeated that many times.
* `C67_replicate_curves` (`Props/CurveLaws.lean`): Replication, curves: The curves with integer weights are those of the data set with repeated samples.
* `C67_scale` (`Props/CurveLaws.lean`): Scale: Multiplying every row of weights by a positive constant of its own does not change the curves.
* `C67_rows` (`Props/CurveLaws.lean`): Rows: Every row of weights is treated on its own: the curves for a table of weights consist of the curves for its rows.
* `C67_unweighted` (`Props/CurveLaws.lean`): No weights: Without weights the counts are those of weights 1.

Note: Finite floats are exact (no rounding error); special values follow IEEE. The sort is stable as in the code; C65 shows that the order of the samples does not matter.

### C68. ROC area is the Mann-Whitney probability (proved)

Modelled code: `mlpaper/perf_curves.py:roc_curve`, `mlpaper/util.py:area`.
Proof: summation by parts from the trapezoid sums to the pair counts.

* `C68_mann_whitney` (`Props/Auc.lean`): With both classes present, the area under every row of the ROC curve is the weighted share of pairs of a positive and a negative sample that the scores order correctly, ties counting one half.

Note: Finite floats are exact (no rounding error); special values follow IEEE. The sort is stable as in the code; C65 shows that the order of the samples does not matter.

### C69. ROC area is in [0,1] and reverses with the scores (proved)

Modelled code: `mlpaper/perf_curves.py:roc_curve`, `mlpaper/util.py:area`.
Proof: summation by parts from the trapezoid sums to the pair counts.

* `C69_bounds` (`Props/Auc.lean`): Range: The area under the ROC curve is between 0 and 1, for every row of weights and any labels.
* `C69_flip` (`Props/Auc.lean`): Swapped classes: Exchanging the labels turns the area into one minus the area.
* `C69_negate` (`Props/Auc.lean`): Negated scores: Negating the scores turns the area into one minus the area.
* `C69_constant` (`Props/Auc.lean`): Constant scores: If all scores are equal the area is one half.
* `C69_perfect` (`Props/Auc.lean`): Perfect scores: If every positive sample has a higher score than every negative one, the area is 1.

Note: Finite floats are exact (no rounding error); special values follow IEEE. The sort is stable as in the code; C65 shows that the order of the samples does not matter.

### C70. Single-class data gives chance ROC (proved)

Modelled code: `mlpaper/perf_curves.py:_add_pseudo_points`.
Proof: summation by parts from the trapezoid sums to the pair counts.

* `C70_roc` (`Props/Auc.lean`): Roc: If all labels are the same, the ROC curve lies on the diagonal and the area is one half.
* `C70_precision` (`Props/Auc.lean`): Precision: If all labels are positive, the precision is `1 / (1 + 1e-10)` everywhere; if all are negative, it is `1e-10 / (1 + 1e-10)`.

Note: Finite floats are exact (no rounding error); special values follow IEEE. The sort is stable as in the code; C65 shows that the order of the samples does not matter.

### C71. Precision is a proportion and ends at the prevalence (proved)

Modelled code: `mlpaper/perf_curves.py:recall_precision_curve`.
Proof: threshold counts (C63) and case analysis on zero counts; sums of the step areas.

* `C71_precision` (`Props/Gain.lean`): Precision: Every row of precisions lies in [0, 1], starts with the same value twice and ends with the share of positives.
* `C71_area` (`Props/Gain.lean`): Area: The area under the recall-precision curve is the sum, over the steps of recall, of the precision at the threshold before times the increase in recall; it is between 0 and 1.

Note: Finite floats are exact (no rounding error); special values follow IEEE. The sort is stable as in the code; C65 shows that the order of the samples does not matter.

### C72. Precision-recall-gain matches its definition (proved)

Modelled code: `mlpaper/perf_curves.py:prg_curve`.
Proof: threshold counts (C63) and case analysis on zero counts; sums of the step areas.

* `C72_recall_gain` (`Props/Gain.lean`): Recall gain: Where the recall is at least the share of positives, the recall gain is the gain of the recall; elsewhere it is 0.
* `C72_precision_gain` (`Props/Gain.lean`): Precision gain: The precision gain is the gain of the precision (minus infinity for precision 0), the value at the threshold `+inf` being that at the highest score; it is at most 1, is never NaN and ends at 0.
* `C72_rises` (`Props/Gain.lean`): Monotone: The recall gain goes up from 0 to 1.

Note: Finite floats are exact (no rounding error); special values follow IEEE. The sort is stable as in the code; C65 shows that the order of the samples does not matter.

### C73. PRG area can be minus infinity (proved)

Modelled code: `mlpaper/perf_curves.py:prg_curve`, `mlpaper/util.py:area`.
Proof: threshold counts (C63) and case analysis on zero counts; sums of the step areas.

* `C73_area` (`Props/Gain.lean`): The area under the precision-recall-gain curve is never NaN and at most 1, and it is minus infinity exactly if some sample has a higher score than every positive sample while the recall exceeds the share of positives at the highest score of a positive sample.

Note: Finite floats are exact (no rounding error); special values follow IEEE. The sort is stable as in the code; C65 shows that the order of the samples does not matter.

### C74. hard_loss takes a Bayes action and scores it (proved)

Modelled code: `mlpaper/classification.py:hard_loss`, `mlpaper/classification.py:hard_loss_decision`.
Proof: finite sums over reals; Gibbs' inequality, squares and Cauchy–Schwarz for propriety; tables as functions of method and metric.

* `C74_reject` (`Props/HardLoss.lean`): Invalid input: Labels that do not fit the predictions raise AssertionError in all four losses.
* `C74_reject_matrix` (`Props/HardLoss.lean`): Invalid loss matrix: A loss matrix without a row for each label or without actions raises AssertionError.
* `C74_bayes` (`Props/HardLoss.lean`): `hard_loss` returns for every sample the loss of the first action whose expected loss under the predicted probabilities is least.
* `C74_zero_one` (`Props/HardLoss.lean`): Zero-one loss: Without a loss matrix the loss is 0 if the true label is the first most probable label and 1 otherwise.

Note: Finite floats are exact (no rounding error); special values follow IEEE.

### C75. Log loss is non-negative and proper (proved)

Modelled code: `mlpaper/classification.py:log_loss`.
Proof: finite sums over reals; Gibbs' inequality, squares and Cauchy–Schwarz for propriety; tables as functions of method and metric.

* `C75_value` (`Props/LogLoss.lean`): Value: `log_loss` is minus the logarithm of the probability of the true label, plus infinity for probability 0.
* `C75_nonneg` (`Props/LogLoss.lean`): Non-negative: For normalised predictions the log loss is at least 0, and it is 0 exactly for predictions that give the true label probability 1.
* `C75_proper` (`Props/LogLoss.lean`): Proper: If the label has distribution `q`, then the expected log loss is least for the prediction `log q`, and only for it.

Note: Finite floats are exact (no rounding error); special values follow IEEE.

### C76. Brier loss is calibrated to [0, ...] and proper (proved)

Modelled code: `mlpaper/classification.py:brier_loss`.
Proof: finite sums over reals; Gibbs' inequality, squares and Cauchy–Schwarz for propriety; tables as functions of method and metric.

* `C76_value` (`Props/Brier.lean`): Value: `brier_loss` is the squared distance of the probabilities from certainty of the true label, times `n/(n-1)` if rescaling is asked for and there are `n ≥ 2` labels.
* `C76_range` (`Props/Brier.lean`): Range: For normalised predictions the loss lies between 0 and 2, or `2n/(n-1)` when rescaled, and it is 0 exactly for predictions that give the true label probability 1.
* `C76_uniform` (`Props/Brier.lean`): Calibration: With two or more labels the rescaled loss of the uniform prediction is 1.
* `C76_proper` (`Props/Brier.lean`): Proper: If the label has distribution `q`, then the expected Brier loss is least for the prediction `log q`, and only for it.

Note: Finite floats are exact (no rounding error); special values follow IEEE.

### C77. Spherical loss is calibrated and proper (proved)

Modelled code: `mlpaper/classification.py:spherical_loss`.
Proof: finite sums over reals; Gibbs' inequality, squares and Cauchy–Schwarz for propriety; tables as functions of method and metric.

* `C77_value` (`Props/Spherical.lean`): Value: `spherical_loss` is minus the probability of the true label over the Euclidean norm of the probabilities; rescaled it is 1 minus that, over `1 - 1/√n` for `n ≥ 2` labels. The predictions need not be normalised.
* `C77_shift` (`Props/Spherical.lean`): Shift: Adding a constant to a row, that is multiplying its probabilities by a constant, does not change the spherical loss.
* `C77_range` (`Props/Spherical.lean`): Range: The rescaled loss lies between 0 and `1/(1 - 1/√n)` (1 for a single label), and it is 0 exactly when all other labels have probability 0; the loss that is not rescaled lies between -1 and 0.
* `C77_uniform` (`Props/Spherical.lean`): Calibration: With two or more labels the rescaled loss of the uniform prediction is 1, whatever its normalisation.
* `C77_proper` (`Props/Spherical.lean`): Proper: If the label has distribution `q`, then the expected spherical loss is least for the prediction `log q`; among normalised predictions only for it, among all predictions only for those that differ from it by a constant.

Note: Finite floats are exact (no rounding error); special values follow IEEE.

### C78. Unnormalised predictions cannot cheat (proved)

Modelled code: `mlpaper/classification.py:loss_table`, `mlpaper/util.py:normalize`.
Proof: finite sums over reals; Gibbs' inequality, squares and Cauchy–Schwarz for propriety; tables as functions of method and metric.

* `C78_shift` (`Props/ClassTable.lean`): No cheating by normalisation: Adding any constants to the rows of predictions of any methods does not change the loss table, or the exception, unless `assume_normalized` is set.
* `C78_nan` (`Props/ClassTable.lean`): Nan: A table with a NaN in the predictions of a method is never accepted.
* `C78_nan_assertion` (`Props/ClassTable.lean`): Nan: If the table is otherwise well formed and the loss functions do not fail, then the exception is AssertionError.

Note: Finite floats are exact (no rounding error); special values follow IEEE.

### C79. loss_table applies every loss to every method (proved)

Modelled code: `mlpaper/classification.py:loss_table`.
Proof: finite sums over reals; Gibbs' inequality, squares and Cauchy–Schwarz for propriety; tables as functions of method and metric.

* `C79_columns` (`Props/ClassTable.lean`): Columns: The table that `loss_table` returns has a column for every metric and method and no other columns. The column is the loss function applied to the labels and to the predictions of that method, normalised unless this is declined; the column has an entry for each row.
* `C79_local` (`Props/ClassTable.lean`): No mixing: Tables that agree on the columns of a method give the same losses for that method, whatever the other methods predict.
* `C79_success_on` (`Props/ClassTable.lean`): Success: `loss_table` succeeds on a well-formed table without NaN if the loss functions succeed on the (normalised) predictions of the methods.
* `C79_success` (`Props/ClassTable.lean`): Success: `loss_table` succeeds on a well-formed table without NaN if the loss functions succeed on all inputs of the right shape.
* `C79_reject` (`Props/ClassTable.lean`): Invalid: A wrong number of labels, or an empty table, raises AssertionError.

Note: Finite floats are exact (no rounding error); special values follow IEEE.

### C80. JustNoise predicts smoothed label frequencies (proved)

Modelled code: `mlpaper/classification.py:JustNoise`, `mlpaper/util.py:one_hot`, `mlpaper/classification.py:get_pred_log_prob`.
Proof: composition with `normalize` (C55); bounds for logsumexp.

* `C80_noise` (`Props/ClassNoise.lean`): Prediction: After fitting to labels `0 ≤ y < n` with a pseudo count `c ≥ 0`, the prediction for every test point is the logarithm of `(count of the label + c) / (number of points + n c)`, which is a distribution.
* `C80_empty` (`Props/ClassNoise.lean`): No data: Without data and pseudo counts everything becomes NaN.
* `C80_optimal` (`Props/ClassNoise.lean`): Optimality: Without pseudo counts no constant prediction has a smaller total log loss on the training labels, and every other distribution has a larger one.
* `C80_reject` (`Props/ClassNoise.lean`): Boolean labels: Fitting to Boolean labels, or to labels that are out of range, raises AssertionError.
* `C80_bool` (`Props/ClassPred.lean`): In the table: `JustNoise` on Boolean labels stops `get_pred_log_prob` with AssertionError, although the checks accept Boolean labels.
* `C80_method` (`Props/ClassPred.lean`): As a method: For data of the documented form with integer labels, `JustNoise` predicts the smoothed frequencies for every test point, and nothing else.
* `C80_table` (`Props/ClassPred.lean`): The table: In a table made without a floor the entries of `JustNoise` are the logarithms of the smoothed frequencies.

Note: Finite floats are exact (no rounding error); special values follow IEEE. Estimators are arbitrary functions; bootstrap draws are parameters.

### C81. Prediction tables are normalised; the floor holds only up to the normaliser (proved)

Modelled code: `mlpaper/classification.py:get_pred_log_prob`, `mlpaper/util.py:normalize`.
Proof: composition with `normalize` (C55); bounds for logsumexp.

* `C81_checks` (`Props/ClassPred.lean`): Checks: The checks succeed exactly for data of the documented form.
* `C81_table` (`Props/ClassPred.lean`): Table: The table has a row for each test point and a column for each method and label and no other columns, and the columns of a method are in the order of the labels. The entries of a method come from what the method predicts, and from nothing else: each row is the row of predictions with entries below the floor replaced by the floor, minus the logarithm of its total.
* `C81_normalised` (`Props/ClassPred.lean`): Normalised: If the floor is a number, or if the method predicts something for every test point, then every row of the table is a distribution.
* `C81_floor` (`Props/ClassPred.lean`): Floor: For a method that predicts distributions and a floor `f`, an entry of the table is what the method predicts, or the floor where that is larger, minus a number between 0 and `log (1 + n exp f)`, which is the same for the whole row. So it is at least `f - log (1 + n exp f)`. Where the floor replaces the prediction, the entry in the table is smaller than the floor.
* `C81_success` (`Props/ClassPred.lean`): Success: If the data have the documented form and every method predicts a matrix of the right shape, there is a table.
* `C81_wrong_shape` (`Props/ClassPred.lean`): Wrong shape: A method whose predictions have the wrong shape stops the run with AssertionError, if the methods before it succeed.

Note: Finite floats are exact (no rounding error); special values follow IEEE. Estimators are arbitrary functions; bootstrap draws are parameters.

### C82. curve_boot output is coherent (proved)

Modelled code: `mlpaper/classification.py:curve_boot`, `mlpaper/classification.py:check_curve`.
Proof: composition of curves (C63–C73), percentiles (C38) and significance (C41), for any curve function, then for the standard ones.

* `C82_result` (`Props/CurveBoot.lean`): Result: What `curve_boot` returns, for any curve function: the estimate is the area of the curve without weights; the error and the p-value come from the areas of the curves with the bootstrap weights and from those of the reference with the same weights; each row of the table has a grid point, the value of the curve and the percentiles of the values of the bootstrapped curves there.
* `C82_success` (`Props/CurveBoot.lean`): Success: For labels 0 and 1, predictions without NaN where the log-probabilities of label 1 are finite, a valid reference, a grid in [0, 1] (or the default) and a confidence between 0 and 1, `curve_boot` returns a result for every outcome of the bootstrap. The estimate, the curve and the envelope are between `lo` and 1: `lo` is 0 for ROC and precision-recall curves. For precision-recall-gain curves it is `-inf`, and then only the error bar without pairs is covered.
* `C82_coherent` (`Props/CurveBoot.lean`): Coherence: Whatever the curve function: the p-value is in [0, 1]; the error bar is not negative and not NaN if the estimate (with `pairwise_CI` the difference to that of the reference) is finite; at each grid point the lower end of the envelope is at most the upper end, and neither is NaN.
* `C82_self` (`Props/CurveBoot.lean`): The reference itself: With its own predictions (or others with the same log-probabilities of label 1) as reference a method gets p-value 1; with `pairwise_CI` the error bar is 0, provided the estimate is finite.
* `C82_reject` (`Props/CurveBoot.lean`): Rejected input: AssertionError for: labels and predictions that do not fit together; not exactly two labels; a NaN in the predictions; no replicates; a NaN in the reference or a reference of another shape; and, for the standard curves, a log-probability of label 1 that is not finite.
* `C82_finite` (`Props/CurveTable.lean`): Finite results: For curves with values in [0, 1] the estimate is in [0, 1] and the error bar is a number that is not negative or plus infinity, also with `pairwise_CI`.

Note: Finite floats are exact (no rounding error); special values follow IEEE. Estimators are arbitrary functions; bootstrap draws are parameters.

### C83. curve_summary_table marks the reference (proved)

Modelled code: `mlpaper/classification.py:curve_summary_table`.
Proof: composition of curves (C63–C73), percentiles (C38) and significance (C41), for any curve function, then for the standard ones.

* `C83_cells` (`Props/CurveTable.lean`): Cells: The table has a row for each method and a cell for each curve, each the `curve_boot` result for that method and curve; the curve dump has an entry for each method and curve, which is the curve of the same call.
* `C83_dump` (`Props/CurveTable.lean`): The dump: Exactly one entry for each method and curve.
* `C83_missing` (`Props/CurveTable.lean`): The reference: The p-value is NaN exactly for the reference, otherwise it is in [0, 1]. With `pairwise_CI` the error bar of the reference is NaN; without, no error bar of a finite estimate is.
* `C83_error_missing` (`Props/CurveTable.lean`): Error bars: For curves with values in [0, 1] and finite predictions of label 1 the error bar is NaN exactly for the reference with `pairwise_CI`; otherwise it is not negative. The estimate is in [0, 1].
* `C83_success` (`Props/CurveTable.lean`): Success: For such a table and labels 0 and 1 the curve summary succeeds, for every outcome of the bootstrap, with ROC and precision-recall curves; with precision-recall-gain curves it does without `pairwise_CI`.
* `C83_reject` (`Props/CurveTable.lean`): Rejected input: A label vector of another length, an unknown reference method, no rows, no labels or no curves: AssertionError.
* `C83_local` (`Props/CurveTable.lean`): No mixing: A cell depends only on the columns of its method and of the reference, on its curve function and on its draws: with other methods or curves added or taken away it is the same.

Note: Finite floats are exact (no rounding error); special values follow IEEE. Estimators are arbitrary functions; bootstrap draws are parameters.

### C84. summary_table is loss summary plus curve summary (proved)

Modelled code: `mlpaper/classification.py:summary_table`.
Proof: composition of curves (C63–C73), percentiles (C38) and significance (C41), for any curve function, then for the standard ones.

* `C84_cells` (`Props/FullTable.lean`): A successful `summary_table` has one row for each method, in sorted order. Its metrics are the losses, in sorted order, followed by the curves, in the given order. A cell of a loss is the cell of `loss_summary_table` of the losses of `loss_table` (properties C51 and C79). A cell of a curve is that of `curve_summary_table` for this method and this curve, with the entry of the curve dump for it (property C83).
* `C84_success` (`Props/FullTable.lean`): Success: `summary_table` succeeds on a well-formed table of predictions of two labels, if the loss functions give numbers within the limits and the curve functions are sound.
* `C84_success_std` (`Props/FullTable.lean`): Success with the standard metrics: With the standard losses and the standard curves, the default grid and no pairwise error bars, `summary_table` succeeds on every table of finite predictions of two labels.
* `C84_reject` (`Props/FullTable.lean`): Rejection: The wrong number of labels, an unknown reference method, an empty table, no labels, no curves: an AssertionError.

Note: Finite floats are exact (no rounding error); special values follow IEEE. Estimators are arbitrary functions; bootstrap draws are parameters.

### C85. Regression losses (proved)

Modelled code: `mlpaper/regression.py:square_loss`, `mlpaper/regression.py:abs_loss`, `mlpaper/regression.py:log_loss`, `mlpaper/regression.py:shape_and_validate`.
Proof: logarithm and square inequalities for sums; composition along the table loop.

* `C85_accepts` (`Props/RegrLoss.lean`): Validation: `shape_and_validate` accepts exactly vectors of numbers of the same length, at least 1, with positive standard deviations, and returns that length.
* `C85_reject` (`Props/RegrLoss.lean`): Rejection: On all other input the three losses raise: a ValueError if the targets are not one-dimensional, otherwise an AssertionError.
* `C85_square` (`Props/RegrLoss.lean`): Square loss: 
* `C85_abs` (`Props/RegrLoss.lean`): Absolute loss: 
* `C85_log` (`Props/RegrLoss.lean`): Log loss: 
* `C85_density` (`Props/RegrLoss.lean`): The log loss is minus the logarithm of the density of the predicted normal distribution: 
* `C85_square_abs` (`Props/RegrLoss.lean`): Relations: Square and absolute loss are at least 0, are 0 exactly where the mean is the target, and the square loss is the square of the absolute loss.

Note: Finite floats are exact (no rounding error); special values follow IEEE. Estimators are arbitrary functions.

### C86. Gaussian log loss rewards calibrated predictions (proved)

Modelled code: `mlpaper/regression.py:log_loss`, `mlpaper/regression.py:JustNoise`.
Proof: logarithm and square inequalities for sums; composition along the table loop.

* `C86_mean` (`Props/RegrNoise.lean`): The mean: Whatever the standard deviations, predicting the targets as means gives the least log loss at every sample, and a larger loss wherever another mean is predicted.
* `C86_scale` (`Props/RegrNoise.lean`): The standard deviation: Where the mean is off, the size of the error is the standard deviation with the least log loss, and the only one.
* `C86_sample` (`Props/RegrNoise.lean`): Calibration on a sample: Of all constant predictions for a sample that is not constant, the one of `JustNoise` fitted to that sample has the least mean log loss, and no other prediction has the same mean log loss.
* `C86_square` (`Props/RegrNoise.lean`): Square loss on a sample: The mean that `JustNoise` fits has the least mean square loss of all constant predictions, and no other has the same.

Note: Finite floats are exact (no rounding error); special values follow IEEE. Estimators are arbitrary functions.

### C87. Regression JustNoise (proved)

Modelled code: `mlpaper/regression.py:JustNoise`, `mlpaper/regression.py:shape_and_validate`, `mlpaper/regression.py:get_gauss_pred`.
Proof: logarithm and square inequalities for sums; composition along the table loop.

* `C87_accepts` (`Props/RegrNoise.lean`): Acceptance: `fit` accepts exactly vectors with at least two entries; otherwise it raises AssertionError.
* `C87_fit` (`Props/RegrNoise.lean`): Value: `fit` computes the mean and the population standard deviation of the targets.
* `C87_predict` (`Props/RegrNoise.lean`): Prediction: Trained on numbers, `JustNoise` predicts the mean and the standard deviation of the targets for every test point.
* `C87_degenerate` (`Props/RegrNoise.lean`): Degenerate targets: The predicted standard deviation is 0 exactly if all targets are equal. The losses reject the predictions if and only if that is so: for all targets of test points they raise AssertionError then, and succeed otherwise.

Note: Finite floats are exact (no rounding error); special values follow IEEE. Estimators are arbitrary functions.

### C88. get_gauss_pred floors std and falls back to unit std (proved)

Modelled code: `mlpaper/regression.py:get_gauss_pred`.
Proof: logarithm and square inequalities for sums; composition along the table loop.

* `C88_method` (`Props/RegrPred.lean`): One method: `train_predict` returns what the estimator predicts.
* `C88_method_error` (`Props/RegrPred.lean`): Exceptions of a method: An exception of `fit` is passed on; so is an exception of `predict` with `return_std`, unless it is a TypeError; after a TypeError an exception of the plain `predict` is passed on.
* `C88_checks` (`Props/RegrPred.lean`): Checks: The checks succeed exactly for data of the documented form.
* `C88_reject` (`Props/RegrPred.lean`): Rejections: If there is a first dimension of the test data, unsuitable data raise an AssertionError whatever the methods are (and before any method is trained).
* `C88_table` (`Props/RegrPred.lean`): Table: The table has a row for each test point and the two columns `mu` and `std` for each method, and no other columns. The means of a method are what the method predicts. Its standard deviations are at least `min_std`, are what the method predicts where that is at least `min_std`, and are `min_std` otherwise; a predicted NaN stays NaN.
* `C88_local` (`Props/RegrPred.lean`): No mixing: What other methods there are makes no difference to the columns of a method.
* `C88_success` (`Props/RegrPred.lean`): Success: For suitable data `get_gauss_pred` succeeds if every method predicts vectors with an entry for each test point.
* `C88_error` (`Props/RegrPred.lean`): Failing method: The exception of the first method that fails is passed on; wrong shapes of its predictions raise an AssertionError.
* `C88_noise` (`Props/RegrPred.lean`): Justnoise with a positive floor: With a finite `min_std > 0` the table that contains `JustNoise` trained on any numbers has positive standard deviations for it, so that the losses accept them; compare `C87_degenerate`.

Note: Finite floats are exact (no rounding error); special values follow IEEE. Estimators are arbitrary functions.

### C89. Regression loss_table applies every loss to every method (proved)

Modelled code: `mlpaper/regression.py:loss_table`.
Proof: logarithm and square inequalities for sums; composition along the table loop.

* `C89_columns` (`Props/RegrTable.lean`): Columns: The loss table has a column for every metric and method and no other columns, and a row for every row of the predictions. The column is the loss function applied to the targets and to the columns `mu` and `std` of that method, and to nothing else.
* `C89_local` (`Props/RegrTable.lean`): No mixing: Tables that agree on the two columns of a method give the same losses for that method, whatever the other methods predict and whatever other losses are asked for.
* `C89_success` (`Props/RegrTable.lean`): Success: `loss_table` succeeds if both columns of every method are there and every loss function succeeds on them.
* `C89_reject` (`Props/RegrTable.lean`): Rejections: Without the moments `mu` and `std`, or if the targets are not a vector with one entry for each row, or without rows or methods, there is an AssertionError.
* `C89_missing` (`Props/RegrTable.lean`): Missing column: A method of the table without one of its two columns causes a KeyError, unless a method before it fails.
* `C89_error` (`Props/RegrTable.lean`): Failing loss: The exception of the first loss function that fails on the first method for which one fails is the one of `loss_table`.
* `C89_repeated` (`Props/RegrTable.lean`): Repeated column: If a method has two columns for the mean or two for the standard deviation, there is no loss table with any of the standard losses: neither column is silently preferred.
* `C89_standard` (`Props/RegrTable.lean`): Standard losses: For targets and predictions that are numbers, with positive standard deviations, `loss_table` with `STD_REGR_LOSS` succeeds. Its columns `NLL`, `MSE` and `MAE` contain for each method and sample the negative log density, the squared error and the absolute error.

Note: Finite floats are exact (no rounding error); special values follow IEEE. Estimators are arbitrary functions.

### C90. Checkpointed runs give the same predictions after any crash (proved)

Modelled code: `mlpaper/classification.py:get_pred_log_prob`, `mlpaper/regression.py:get_gauss_pred`.
Proof: a state machine with a result store and estimator objects with state; histories of runs that complete, fail or die anywhere; invariant: usable entries are what the estimator predicts.

* `C90_class_sound` (`Props/Checkpoint.lean`): Stored results: Whatever has happened before, a usable result in the directory is what the estimator predicts from the data.
* `C90_class_plain` (`Props/Checkpoint.lean`): Without checkpoints: For distinct objects, or if training an object a second time makes no difference, running the methods one after the other is the same as treating them as functions of the data.
* `C90_class_resume` (`Props/Checkpoint.lean`): Resuming: After any history of the checkpoint directory (runs that completed, failed, or died at any point, on any data, and lost or damaged results) a run that does not die returns the same table, or raises the same exception, as a run without checkpoints. The objects are distinct, or training one a second time makes no difference.
* `C90_class_trained` (`Props/Checkpoint.lean`): What is trained: A run, even one that dies or fails, trains only methods without a usable result, and no two with the same state and data. If it returns, then it has trained all methods without a result, and all methods have results afterwards.
* `C90_class_monotone` (`Props/Checkpoint.lean`): Usable results stay: No run, however it ends, removes or changes a usable result.
* `C90_class_progress` (`Props/Checkpoint.lean`): Progress: A run that dies does so at the first fault, and the methods before have their results in the directory; so has the method at which it died if that was after its result had been written.
* `C90_class_objects` (`Props/Checkpoint.lean`): State of the objects: Only objects of the methods change, and only by being trained. An object whose result was loaded is not trained.
* `C90_class_idle` (`Props/Checkpoint.lean`): Nothing left to do: If all methods have usable results, nothing is trained, and neither the objects nor the directory change.
* `C90_regr_sound` (`Props/Checkpoint.lean`): Stored results: Whatever has happened before, a usable result in the directory is what the estimator predicts from the data.
* `C90_regr_plain` (`Props/Checkpoint.lean`): Without checkpoints: For distinct objects, or if training an object a second time makes no difference, running the methods one after the other is the same as treating them as functions of the data.
* `C90_regr_resume` (`Props/Checkpoint.lean`): Resuming: After any history of the checkpoint directory (runs that completed, failed, or died at any point, on any data, and lost or damaged results) a run that does not die returns the same table, or raises the same exception, as a run without checkpoints. The objects are distinct, or training one a second time makes no difference.
* `C90_regr_trained` (`Props/Checkpoint.lean`): What is trained: A run, even one that dies or fails, trains only methods without a usable result, and no two with the same state and data. If it returns, then it has trained all methods without a result, and all methods have results afterwards.
* `C90_regr_monotone` (`Props/Checkpoint.lean`): Usable results stay: No run, however it ends, removes or changes a usable result.
* `C90_regr_progress` (`Props/Checkpoint.lean`): Progress: A run that dies does so at the first fault, and the methods before have their results in the directory; so has the method at which it died if that was after its result had been written.
* `C90_regr_objects` (`Props/Checkpoint.lean`): State of the objects: Only objects of the methods change, and only by being trained. An object whose result was loaded is not trained.
* `C90_regr_idle` (`Props/Checkpoint.lean`): Nothing left to do: If all methods have usable results, nothing is trained, and neither the objects nor the directory change.
* `C90_refit` (`Props/Checkpoint.lean`): A fitted object is another object: The key of a result contains the state of the object before the call. So a second call with the same object and the same data trains it again, if training has changed the object and there is no result for the changed object.

Note: joblib's store is keyed by the arguments themselves (no hash collisions); a partly written result does not load.

### C91. just_benchmark is the composition of its stages (proved)

Modelled code: `mlpaper/classification.py:just_benchmark`, `mlpaper/regression.py:just_benchmark`.
Proof: composition of the tables; permutation of the test points pushed through every step.

* `C91_class` (`Props/ClassBench.lean`): Classification: A successful `just_benchmark` has one row for each method in sorted order; its metrics are the given losses, sorted, then the given curves. Training and test labels have the same kind, there is one test label for each test point, and there are two labels. The cells of losses and of curves are those of properties C51, C79 and C83 for a table that holds what the methods predict: each row of predictions with entries below the floor replaced by the floor, minus the logarithm of its total. There are 1000 bootstrap replicates, confidence is 0.95 and the grid is the default one.
* `C91_class_standard` (`Props/ClassBench.lean`): Classification, success: With two labels, the standard losses, the standard curves and no pairwise error bars `just_benchmark` succeeds if the data have the right shapes, the test labels are 0 or 1, and each method predicts a matrix of the right shape whose entries, after flooring, are numbers.
* `C91_class_reject` (`Props/ClassBench.lean`): Classification, rejections: Labels of different kinds raise an AssertionError. An unknown reference method, a wrong number of test labels, or no curves give no table.
* `C91_sym_logLoss` (`Props/ClassBench.lean`): The log loss is a loss of each sample on its own.
* `C91_sym_brierLoss` (`Props/ClassBench.lean`): The Brier loss is a loss of each sample on its own.
* `C91_sym_sphericalLoss` (`Props/ClassBench.lean`): The spherical loss is a loss of each sample on its own.
* `C91_sym_hardLoss` (`Props/ClassBench.lean`): The loss of the best action is a loss of each sample on its own, for every loss matrix.
* `C91_sym_class` (`Props/ClassBench.lean`): The standard losses are losses of each sample on its own, and for the standard curves the order of the samples does not matter.
* `C91_class_order` (`Props/ClassBench.lean`): Classification, order of the test points: With such losses and curves the order of the test points does not matter: if the points, their labels and the bootstrap draws are put in another order, the table and the curves are the same.
* `C91_regr` (`Props/RegrBench.lean`): Regression: A successful `just_benchmark` has one row for each method and the metrics of the given losses, both in sorted order. The cells are those of `loss_summary_table` (property C51) for the losses of the predictions: for each method and loss the loss function is applied to the test targets, the predicted means and the predicted standard deviations, where those below `min_std` are replaced by it.
* `C91_regr_reject` (`Props/RegrBench.lean`): Regression, rejections: Targets with different dtypes raise an AssertionError. An unknown reference method or no loss functions give no table.
* `C91_regr_standard` (`Props/RegrBench.lean`): Regression with the standard losses: If the data have the right shapes, all targets are numbers, every method predicts numbers and after flooring positive standard deviations, then `just_benchmark` with `STD_REGR_LOSS` succeeds. The means in the table are the average negative log density, squared error and absolute error over the test points.
* `C91_sym_square` (`Props/RegrBench.lean`): The squared error is a loss of each sample on its own.
* `C91_sym_abs` (`Props/RegrBench.lean`): The absolute error is a loss of each sample on its own.
* `C91_sym_log` (`Props/RegrBench.lean`): The log loss is a loss of each sample on its own.
* `C91_sym_std` (`Props/RegrBench.lean`): The standard losses are losses of each sample on its own.
* `C91_regr_order` (`Props/RegrBench.lean`): Regression, order of the test points: With losses of each sample on its own (such as the standard ones, C91_sym_std) the order of the test points does not matter: if the points, their targets and the bootstrap draws are put in another order, the table is the same.

Note: Finite floats are exact (no rounding error); special values follow IEEE. Estimators are arbitrary functions; bootstrap draws are parameters.

### C92. Certain classifiers break just_benchmark unless a floor is set (proved)

Modelled code: `mlpaper/classification.py:741-828`, `mlpaper/classification.py:730-737`, `mlpaper/classification.py:363-383`, `mlpaper/perf_curves.py:86-90`.
Proof: the zero probability is followed through flooring, normalisation and the finiteness check of the scores.

* `C92_zero_fails` (`Props/ZeroProb.lean`): Without a floor: With the default floor `-inf` and one of the curves of the package, `just_benchmark` gives no table if some method gives label 1 the probability zero for some test point, be it right or wrong there.
* `C92_floor` (`Props/ZeroProb.lean`): With a floor: With a finite floor the standard benchmark gives a table also for methods that give some labels the probability zero: their log-probabilities may be numbers and `-inf`.

Note: Finite floats are exact (no rounding error); special values follow IEEE. Estimators are arbitrary functions; bootstrap draws are parameters.

### C93. Bernstein error bars and tests keep their promise for any bounded distribution (proved)

Modelled code: `mlpaper/mlpaper.py:bernstein_EB`, `mlpaper/mlpaper.py:bernstein_test`, `mlpaper/mlpaper.py:get_mean_and_EB`.
Proof: empirical Bernstein inequality proved from scratch in `Lemmas/Bernstein.lean` (exponential moments, Chernoff bound, a lower tail for the sum of squares), matched with the constants in the code.

* `C93_strict` (`Props/Coverage.lean`): Strict coverage: The numbers are drawn independently, possibly from different distributions on `[l, u]` with the same mean `m`. The probability that `m` is not strictly inside the Bernstein interval is at most `1 - confidence`.
* `C93_coverage` (`Props/Coverage.lean`): Coverage: For independent numbers in `[l, u]` with the same mean `m`, `bernstein_EB` succeeds on every outcome, and the interval around the sample mean contains `m` with probability at least the confidence.
* `C93_test` (`Props/Coverage.lean`): Validity of the test: If the true mean is 0, the p-value of `bernstein_test` is at most `α` with probability at most `α`, for every `α ≥ 0` and every number of points.
* `C93_mean_and_EB` (`Props/Coverage.lean`): In `get_mean_and_eb`: Cutting the bar at the trivial bar and raising it to a minimum keeps the coverage: with method `'bernstein'`, the returned mean and error bar contain the true mean with probability at least the confidence.

Note: Finite floats are exact (no rounding error). The data are random variables on a probability space, independent across points or rows, bounded, with equal means.

### C94. The Bernstein loss table is statistically valid (proved)

Modelled code: `mlpaper/mlpaper.py:loss_summary_table`.
Proof: the cells of the table (C51) are the Bernstein bars and tests of the losses or their differences; C93 applies to them.

* `C94_error_bar` (`Props/TableCoverage.lean`): Error bars: Without `pairwise_CI`, the mean and the error bar that the table shows for a method contain the true expected loss of the method with probability at least the confidence.
* `C94_pairwise` (`Props/TableCoverage.lean`): Pairwise error bars: With `pairwise_CI`, the difference of the two means in the table and the error bar of the method contain the true difference in expected loss with probability at least the confidence.
* `C94_p_value` (`Props/TableCoverage.lean`): P-values: If the method has the same expected loss as the reference, then its p-value in the table is at most `α` with probability at most `α`, with and without `pairwise_CI`.

Note: Finite floats are exact (no rounding error). The data are random variables on a probability space, independent across points or rows, bounded, with equal means.

### C95. t intervals and t tests are exact for normal data (proved)

Modelled code: `mlpaper/mlpaper.py:t_EB`, `mlpaper/mlpaper.py:t_test`, `mlpaper/mlpaper.py:get_mean_and_EB`.
Proof: the law of the t statistic is derived in `Lemmas/TLaw.lean` (rotation of the normal distribution, density of the ratio by a change of scale) and matched with the Student density behind `studentT`.

* `C95_t_EB_exact` (`Props/TExact.lean`): Error bars: For independent normal data with a common mean and variance and at least two points, the interval of `t_EB` around the sample mean contains the true mean with probability exactly the confidence.
* `C95_t_test_exact` (`Props/TExact.lean`): Tests: If the true mean is 0, the p-value of `t_test` is uniform on [0, 1]: it is at most `α` with probability exactly `α`.
* `C95_mean_and_EB` (`Props/TExact.lean`): `get_mean_and_eb`: For normal data and no limits, the mean and error bar with method `'t'` contain the true mean with probability exactly the confidence.

Note: Finite floats are exact (no rounding error). The t distribution is the one constructed in Lemmas/StudentT.lean. Independent normal data.

### C96. The default loss table is exact for normal losses (proved)

Modelled code: `mlpaper/mlpaper.py:loss_summary_table`.
Proof: the cells of the table (C51) are the t bars and tests of the losses or their differences; C95 applies to them.

* `C96_error_bar` (`Props/TExact.lean`): Error bars: A metric without limits and normal losses of a method, independent between at least two rows: without `pairwise_CI` the mean and error bar of the default method `'t'` contain the expected loss with probability exactly the confidence.
* `C96_pairwise` (`Props/TExact.lean`): Pairwise error bars: With `pairwise_CI` and normal differences to the reference, the difference of the two means and the error bar contain the true difference with probability exactly the confidence.
* `C96_p_value` (`Props/TExact.lean`): P-values: If the differences to the reference are normal with mean 0, then the p-value in the table is uniform: at most `α` with probability exactly `α`, with and without `pairwise_CI`.

Note: Finite floats are exact (no rounding error). The t distribution is the one constructed in Lemmas/StudentT.lean. Independent normal losses or differences.

### C97. Random splits are fair (proved)

Modelled code: `mlpaper/data_splitter.py:rand_subset`, `mlpaper/data_splitter.py:rand_mask`, `mlpaper/data_splitter.py:random_split_series`.
Proof: An event has probability a/b when the number of permutations in it times b is a times n!. The permutations whose first N entries form a given set (or list) are mapped one to one onto those of any other set of that size by composing with a permutation that carries one to the other; summing over all sets gives the probability.

* `C97_rand_subset` (`Props/Uniform.lean`): `rand_subset`: Every arrangement of `N = ceil(frac * n)` of the `n` different elements is the result with the same probability `1 / (n * (n - 1) * ... * (n - N + 1))`.
* `C97_rand_mask` (`Props/Uniform.lean`): `rand_mask`: Every mask of the right length with `N = ceil(frac * n)` times True has the same probability `1 / (n choose N)`.
* `C97_random_split` (`Props/Uniform.lean`): `random_split_series`: Every set of `N = ceil(frac * u)` of the `u` distinct values is the set of training values with the same probability `1 / (u choose N)`.
* `C97_row` (`Props/Uniform.lean`): Rows: Each row is in the training set with probability `ceil(frac * u) / u`.
* `C97_row_unique` (`Props/Uniform.lean`): Rows, `assume_unique`: The same with the hint: the rows themselves are drawn.

Note: numpy's permutation(n) is taken to be uniform; the pseudo random generator is not modelled.

### C98. Bootstrap resampling is unbiased and has the spread of the mean (proved)

Modelled code: `mlpaper/boot_util.py:boot_weights`, `mlpaper/mlpaper.py:boot_EB`, `mlpaper/mlpaper.py:_boot_EB_and_test`.
Proof: A row of multinomial counts is the counts of a function Fin N -> Fin N, all equally likely. Expected products of functions of different draws factor, which gives first and second moments of sums over the draws.

* `C98_weights` (`Props/BootMoments.lean`): Weights: `boot_weights(N, 1)`: the expected weight of each point is 1, its variance is `1 - 1/N`, and the weights of two different points have covariance `-1/N`.
* `C98_mean` (`Props/BootMoments.lean`): Resampled means: Over the equally likely draws the mean of a resample has the mean of the data as its expected value, and its variance is that of the data (divisor `N`) over `N`.
* `C98_boot_EB` (`Props/BootMoments.lean`): `boot_eb` with one replicate: The mean square of the error bar is exactly the squared standard error of the mean (with divisor `N`): the bar shows the spread of the mean, not that of the data, and it is not inflated by bias.

Note: Moments of a replicate; coverage of the bootstrap interval has no finite sample guarantee and none is claimed.

### C99. The LaTeX text is a well formed table with every value in its place (proved)

Modelled code: `mlpaper/sciprint.py:table_to_latex`, `mlpaper/sciprint.py:just_format_it`, `mlpaper/sciprint.py:adjust_headers`.
Proof: Export model of pandas over the strings of C22. The text is read back with an independent reader: split at newlines, strip the trailing \\, split at &, trim blanks.

* `C99_latex` (`Props/Export.lean`): The LaTeX text of `just_format_it` is a booktabs tabular: one alignment letter `l`, then `Sr` for each metric; a header line; one line for each method, in order. Every line ends in `\\` and has as many fields as there are alignment letters: `{}` and the headers, or the method name and its estimates and p-values, in the order of the columns.
* `C99_scale_header` (`Props/Export.lean`): The scale in an exported TeX header: where `adjust_headers` returns a TAB and `imes` (C19), the export writes the TAB as `\t`, so the text has `$\times 10^{s}$` after all.

Note: The pandas layout (to_latex of pandas 0.24) is written from knowledge of its source, which is not available here; it agrees with the sample output in README.rst up to blanks next to the empty corner.

### C100. The plain text table has fixed columns and aligned decimal points (proved)

Modelled code: `mlpaper/sciprint.py:table_to_string`, `mlpaper/sciprint.py:just_format_it`, `mlpaper/sciprint.py:pad_num_str`.
Proof: Pieces of the line have exactly the widths of adjoin; C22 with the padding of C16 gives the place of the units digit inside a cell, right justification the place in the line. C100_layout gives the whole text: every field of every line from `cellField`, with the widths of the longest entries.

* `C100_text` (`Props/Export.lean`): The plain text of `just_format_it`: a header line and one line for each method, in order. There are fixed column positions: cutting any line at them gives, up to blanks, the headers, or the method name and its estimates and p-values, in the order of the columns. All lines have the same length, and neighbouring columns are separated by a blank.
* `C100_aligned` (`Props/Export.lean`): Aligned numbers: in the plain text, the units digits of the estimates of a column (so the decimal points too) are in the same position of every line.
* `C100_layout` (`Props/ExportLayout.lean`): The exact plain text of `just_format_it`: the method names padded to their longest (at most 50 characters), and for each column one blank and the header or cell to the right of a room that just holds the header and the longest cell with a leading blank. Nothing else, and no blank at the end of a line.

Note: The pandas layout (to_string of pandas 0.24) is written from knowledge of its source, see C99.

### C101. Long cells lose digits without notice (proved)

Modelled code: `mlpaper/sciprint.py:table_to_latex`, `mlpaper/sciprint.py:table_to_string`.
Proof: Direct from the fixed width function of pandas, then read off the exported text (C101_text, C101_latex use C100_layout and C99); a concrete table shows the loss.

* `C101_field` (`Props/Export.lean`): A cell of at most 49 characters (a method name of at most 50) is exported as it is, up to blanks at its ends; a longer one silently loses its end: 46 (47) characters and three dots remain. No cell is longer than that in the text.
* `C101_text` (`Props/ExportLayout.lean`): In the plain text, every method name of at most 50 and every estimate and p-value of at most 49 characters appears as it is; a longer one appears as its first 47 or 46 characters and three dots.
* `C101_latex` (`Props/ExportLayout.lean`): The LaTeX text cuts the same cells in the same way.

Note: The limit is the default display.max_colwidth of pandas 0.24, see C99.

### C102. Infinite losses make impossible labels attractive (proved)

Modelled code: `mlpaper/classification.py:hard_loss_decision`, `mlpaper/classification.py:hard_loss`.
Proof: `argmin` of floats is characterised with NaN and infinity (first NaN, else first least); sums with infinite terms are NaN, infinite or the finite sum; the decision follows by cases.

* `C102_decision` (`Props/Forbidden.lean`): With numbers and plus infinity as losses, `hard_loss_decision` takes for every row of predictions: the first action that has an infinite loss for a label predicted with probability exactly 0, if there is one, whatever its other losses; otherwise the first action with the least expected loss among those without an infinite loss; action 0 if every action has one.
* `C102_reject` (`Props/Forbidden.lean`): Invalid matrices: A loss matrix without a row for each label or without actions raises ValueError in `hard_loss_decision`, even if there are no predictions.
* `C102_loss` (`Props/Forbidden.lean`): The loss: `hard_loss` returns for every sample the loss of the action decided on.

Note: Losses of minus infinity or NaN are outside the statement.

### C103. A mean of more than 28 digits is rounded and its error overstated (proved)

Modelled code: `mlpaper/sciprint.py:print_estimate`, `mlpaper/sciprint.py:digit_str`.
Proof: `scaleb` on a wide coefficient is computed exactly (half-even rounding with a carry), then the reader of C01 is applied.

* `C103_wide_mean` (`Props/PrintWide.lean`): An unclipped mean of `28 + d` digits is printed rounded half-even to 28 significant digits, and with it the decimal point of the error in parentheses moves: a reader gets `10^j` times the error, where `j ≥ 1` is the number of places lost.

Note: decimalize never produces such a mean together with a finite error (C07), so this concerns direct calls of print_estimate and format_table.

### C104. Curves keep their shape in floating point arithmetic (proved)

Modelled code: `mlpaper/perf_curves.py:roc_curve`, `mlpaper/perf_curves.py:recall_precision_curve`, `mlpaper/perf_curves.py:prg_curve`, `mlpaper/perf_curves.py:_binary_clf_curve`.
Proof: Model: `Model/Round.lean` (rounding as a parameter, `binary64` constructed as nearest-even with 53 bits and unbounded exponents), `Model/PerfRound.lean` (the curve functions again, every operation rounded, `np.sum` a parameter). Proof: closed form of each curve as an if over one check; monotonicity of rounding carries the order through sums and quotients, `cummax` and the rescaling to the last value force the ends.

* `C104_roc` (`Props/CurvesRound.lean`): Roc curve: Whatever `roc_curve` returns in floating point arithmetic, there is one row per row of weights and one point per threshold, and every row goes from exactly (0, 0) to exactly (1, 1) and never down.
* `C104_recall_precision` (`Props/CurvesRound.lean`): Recall-precision curve: Whatever `recall_precision_curve` returns in floating point arithmetic, recall goes up from exactly 0 to exactly 1 and never down, and every precision is a number between 0 and 1.
* `C104_prg` (`Props/CurvesRound.lean`): Precision-recall-gain curve: Whatever `prg_curve` returns in floating point arithmetic, the recall gain goes up from exactly 0 to exactly 1 and never down, and wherever it is not 0 the precision gain is a number at most 1.
* `C104_failure` (`Props/CurvesRound.lean`): Failures: On valid input the ROC and the precision-recall-gain curve fail together, and a failure is an `AssertionError`; without weights they never fail.

Note: rounding is a parameter; binary64 with unbounded exponents is an instance; overflow and underflow are not modelled

### C105. When curves succeed in floating point arithmetic (proved)

Modelled code: `mlpaper/perf_curves.py:_binary_clf_curve`, `mlpaper/perf_curves.py:recall_precision_curve`, `mlpaper/classification.py:curve_boot`, `mlpaper/util.py:cummax_strict`.
Proof: Standard error analysis: running sums along a chain and `np.sum` along any tree of additions have relative error (1+u)^n - 1 <= 2nu; hence the allclose check of line 118 passes. `C105_fails` and `C105_precision_fails` compute the failures in `binary64`.

* `C105_unweighted` (`Props/CurvesAccuracy.lean`): Without weights: Without weights none of the three curves fails in floating point arithmetic, as long as the number of samples is small enough for integers to be exact.
* `C105_weighted` (`Props/CurvesAccuracy.lean`): With weights: With `n` samples and rounding errors of at most `u`, the ROC and the precision-recall-gain curve succeed if `n u` is at most `1e-6` and, for rows with negative samples, `9 n u` times the total weight is at most `1e-8` plus `1e-5` times the weight of the negative samples.
* `C105_recall_precision` (`Props/CurvesAccuracy.lean`): Recall-precision curve: It succeeds if in addition `6 n u` times the total weight is less than the weight of the negative samples (if there are any).
* `C105_unweighted_double` (`Props/CurvesDouble.lean`): Without weights in double precision: For up to `2^53` samples without weights none of the curves fails.
* `C105_bootstrap` (`Props/CurvesDouble.lean`): Bootstrap: With the weights that `curve_boot` draws (how often each sample was drawn, but at least `1e-10`), in double precision and with `np.sum` adding in any order, the ROC and the precision-recall-gain curve succeed for up to 3000 samples and every outcome of the draws, and the recall-precision curve for up to 300 samples.
* `C105_fails` (`Props/CurvesDouble.lean`): With weights `1e16` and 1 the running sum loses the second weight: the check of line 118 fails although with exact arithmetic it never does (C64).
* `C105_precision_fails` (`Props/CurvesDouble.lean`): A light negative sample (`2^-30`) with the highest score before a heavy positive one (`1e8`): the ROC curve is computed, but the first precision becomes 0/0 and `recall_precision_curve` fails.

Note: bounds are sufficient, not necessary; overflow and underflow are not modelled

### C106. Accuracy of curves in floating point arithmetic (proved)

Modelled code: `mlpaper/perf_curves.py:roc_curve`, `mlpaper/perf_curves.py:recall_precision_curve`, `mlpaper/perf_curves.py:_binary_clf_curve`.
Proof: Unweighted: all counts are integers below 2^53, so only the final quotient is rounded. Weighted: forward error of numerator and denominator, then of the quotient.

* `C106_roc` (`Props/CurvesAccuracy.lean`): Accuracy of the roc curve: With `n` samples of both classes and rounding errors of at most `u`, in every row of weights where `12 n u` times the total weight is at most the weight of the negative samples, every computed true positive rate is within `6 n u` of the exact one, and every computed false positive rate within `25 n u` times the ratio of total to negative weight.
* `C106_unweighted` (`Props/CurvesAccuracy.lean`): Without weights: Without weights and with both classes present, every point of the ROC curve and of the recall-precision curve is the correctly rounded exact value.

Note: overflow and underflow are not modelled

### C107. Bootstrap intervals and p-values in floating point arithmetic (proved)

Modelled code: `mlpaper/boot_util.py:confidence_to_percentiles`, `mlpaper/boot_util.py:percentile`, `mlpaper/boot_util.py:basic`, `mlpaper/boot_util.py:error_bar`, `mlpaper/boot_util.py:significance`.
Proof: Model: `Model/BootRound.lean`. Proof: monotonicity and oddness bound the computed positions by (n-1)/2 on either side because halves of integers are floats; relative error along the five operations bounds their distance to the exact positions; coherence by counting entries beyond the ends, two numeric lemmas.

* `C107_interval` (`Props/BootRound.lean`): The interval: For every sample without NaN and every confidence level between 0 and 1, the percentile interval computed in floating point arithmetic exists, its ends are entries of the sample, the lower end is the entry at some position in the lower half (the middle included), the upper end at some position in the upper half, so that the interval is not empty.
* `C107_nested` (`Props/BootRound.lean`): Nesting: A higher confidence level gives an interval that contains the one of the lower level.
* `C107_error_bar` (`Props/BootRound.lean`): The error bar: `error_bar` never fails where `percentile` succeeds: its assertions hold in floating point arithmetic too. For a finite estimate it is a number or infinite, at least 0.
* `C107_basic` (`Props/BootRound.lean`): The basic interval: For a finite sample and estimate it is the percentile interval reflected in the estimate, each operation rounded; it is not empty.
* `C107_paired` (`Props/BootRound.lean`): Paired p-values: The same against a paired sample.
* `C107_pvalue` (`Props/BootRound.lean`): P-values: In floating point arithmetic the p-value against a number is twice the smaller of the two shares, each operation rounded, at most 1; it lies between 0 and 1.
* `C107_positions` (`Props/BootRound.lean`): Positions: The ends of the computed interval are the entries at positions that differ from the exact positions `(1-c)/2 (n-1)` and `(1+c)/2 (n-1)`, rounded down and up, by at most `6 u (n-1)` before that.
* `C107_exact` (`Props/BootRound.lean`): The same interval: If the exact position `(1-c)/2 (n-1)` of the lower percentile is not within `6 u (n-1)` of the integers around it, the interval computed in floating point arithmetic is exactly the one of exact arithmetic (C38).
* `C107_coherent` (`Props/BootRound.lean`): Coherence: If the reference lies strictly outside the computed percentile interval, the computed p-value is below the computed `1 - confidence`: interval and test agree in spite of rounding. This holds for `n` replicates as long as `25 n u` is at most `1 - confidence` (with double precision and 1000 replicates: confidence up to 1 - 3e-12).
* `C107_default` (`Props/BootRound.lean`): The default interval: With the default of 1000 replicates and confidence 0.95, in double precision, rounding never changes the interval.

Note: rounding is a parameter, binary64 an instance; overflow and underflow are not modelled

### C108. Tables with pairwise_CI never fail in floating point arithmetic (proved)

Modelled code: `mlpaper/mlpaper.py:loss_summary_table`, `mlpaper/mlpaper.py:get_mean_EB_test`, `mlpaper/mlpaper.py:get_mean_and_EB`, `mlpaper/mlpaper.py:get_test`, `mlpaper/mlpaper.py:clip_EB`, `mlpaper/util.py:clip_chk`.
Proof: Model: `Model/MlpaperRound.lean`, library functions as a parameter `Lib`, contracts `GoodLib` in `Spec/FloatLib.lean`; `doubleLib_good` shows that correctly rounded functions meet them. Proof: error of sums along trees, mean within the tolerance of `clip_chk`, signs of every intermediate result, percentiles by C107.

* `C108_mean_outside` (`Props/TableDouble.lean`): Means beyond the limits: With `pairwise_CI` the same losses are accepted, and the table shows a mean above the upper limit.
* `C108_mean_and_EB` (`Props/TableRound.lean`): Mean and error bar: For finite data within the limits `get_mean_and_EB` succeeds in floating point arithmetic with every method: it returns the computed mean clipped to the limits and an error bar between the minimum and the largest possible one.
* `C108_test` (`Props/TableRound.lean`): Tests: For finite data within the limits every test succeeds and returns a p-value between 0 and 1.
* `C108_combined` (`Props/TableRound.lean`): All at once: For finite data within the limits `get_mean_EB_test` succeeds and returns, to the last bit, what `get_mean_and_EB` and `get_test` return for the same draws.
* `C108_cell` (`Props/TableRound.lean`): Cells: With `pairwise_CI` the cell of a method in comparison with the reference is always computed: the mean is `np.mean` of its losses, the error bar is a number or infinite, at least 0 and at most the largest possible error of the difference, the p-value lies between 0 and 1. The cell of the reference has the mean only.
* `C108_table` (`Props/TableRound.lean`): The table: With `pairwise_CI`, finite losses within valid limits, at least one row, a known method and a confidence in (0,1) `loss_summary_table` produces the table in floating point arithmetic too, for every outcome of the bootstrap draws. Every cell has the computed mean of its losses; the reference has no error bar and no p-value; for the others the error bar is not NaN and not negative and the p-value lies between 0 and 1.

Note: library functions are parameters with the contracts GoodLib, met by doubleLib; overflow and underflow are not modelled

### C109. Tables without pairwise_CI fail exactly if a computed mean leaves its limits (proved)

Modelled code: `mlpaper/mlpaper.py:loss_summary_table`, `mlpaper/mlpaper.py:get_mean_and_EB`, `mlpaper/util.py:clip_chk`.
Proof: Proof: the clipped mean equals the mean iff the mean is within the limits; sums of n numbers below M stay below nM if all multiples are floats (induction on the tree of additions). `C109_fails` evaluates the rounding in the kernel.

* `C109_fails` (`Props/TableDouble.lean`): An accident: Three losses of 0.1, within the limits 0 and 0.1: the computed mean is `0.10000000000000002`, and without `pairwise_CI` the call ends in an AssertionError for every method of computing error bars.
* `C109_integer_limit` (`Props/TableDouble.lean`): Integer limits: In double precision every integer `v` with `n·|v|` at most `2^53` is a harmless limit for `n` rows.
* `C109_cell` (`Props/TableRound.lean`): Cells: Without `pairwise_CI` the cell is computed exactly if the computed mean of the losses lies within the limits; otherwise clipping has moved it and the comparison `mu_ == mu` raises an AssertionError, although every loss is within the limits.
* `C109_table` (`Props/TableRound.lean`): The table: Without `pairwise_CI`, with finite losses within valid limits, at least one row, a known method and a confidence in (0,1): if the computed mean of every column lies within the limits of its metric, the table is produced; if the computed mean of one column does not, the call ends in an AssertionError.
* `C109_at_most` (`Props/TableRound.lean`): Limits on a grid: If the losses are at most `h` and `h`, `2h`, ..., `n·h` are floats, the computed mean is at most `h`.
* `C109_at_least` (`Props/TableRound.lean`): Limits on a grid: If the losses are at least `l` and `l`, `2l`, ..., `n·l` are floats, the computed mean is at least `l`.
* `C109_table_grid` (`Props/TableRound.lean`): Limits on a grid: Without `pairwise_CI`, with finite losses within valid limits that are infinite or on a grid, the table is produced for every outcome of the bootstrap draws.

Note: library functions are parameters with the contracts GoodLib, met by doubleLib; overflow and underflow are not modelled

### C110. The models with rounding extend the exact ones (proved)

Modelled code: `mlpaper/mlpaper.py:loss_summary_table`, `mlpaper/perf_curves.py:roc_curve`, `mlpaper/perf_curves.py:recall_precision_curve`, `mlpaper/perf_curves.py:prg_curve`, `mlpaper/boot_util.py:significance`, `mlpaper/boot_util.py:error_bar`.
Proof: Refinement, function by function: `rF id v = v`, `cumsumR id = cumsum`, and so on up to `C110_table`.

* `C110_roc` (`Props/RoundExact.lean`): Roc curves: 
* `C110_recall_precision` (`Props/RoundExact.lean`): Recall-precision curves: 
* `C110_prg` (`Props/RoundExact.lean`): Precision-recall-gain curves: 
* `C110_percentile` (`Props/RoundExact.lean`): Bootstrap confidence intervals: 
* `C110_basic` (`Props/RoundExact.lean`): Basic bootstrap intervals: 
* `C110_error_bar` (`Props/RoundExact.lean`): Bootstrap error bars: 
* `C110_significance` (`Props/RoundExact.lean`): Bootstrap p-values: 
* `C110_clip_chk` (`Props/RoundExact.lean`): Clipping: 
* `C110_clip_EB` (`Props/RoundExact.lean`): Clipping of error bars: 
* `C110_t_test` (`Props/RoundExact.lean`): T-test: 
* `C110_t_EB` (`Props/RoundExact.lean`): T error bars: 
* `C110_bernstein_test` (`Props/RoundExact.lean`): Bernstein test: 
* `C110_bernstein_EB` (`Props/RoundExact.lean`): Bernstein error bars: 
* `C110_boot_EB_test` (`Props/RoundExact.lean`): Bootstrap over the data: 
* `C110_boot_test` (`Props/`): 
* `C110_boot_EB` (`Props/`): 
* `C110_mean_EB` (`Props/RoundExact.lean`): Mean and error bar: 
* `C110_test` (`Props/RoundExact.lean`): P-value: 
* `C110_mean_EB_test` (`Props/RoundExact.lean`): Mean, error bar and p-value: 
* `C110_table` (`Props/RoundExact.lean`): Tables: 

Note: relates the two models of the same code

### C111. Accuracy of the mean column (proved)

Modelled code: `mlpaper/mlpaper.py:loss_summary_table`.
Proof: Proof: induction on the tree of additions with signed numbers, then the division.

* `C111_mean` (`Props/TableRound.lean`): Means: The computed mean of `n` numbers differs from their average by at most `2 n u` times the average of their absolute values, whatever the order in which `np.sum` adds.
* `C111_table` (`Props/TableRound.lean`): The mean column: Whenever `loss_summary_table` returns a table, with or without `pairwise_CI`, the mean in each cell with finite losses is that accurate.
* `C111_scale` (`Props/TableRound.lean`): Bounded losses: If all losses lie between `l` and `h`, the average of their absolute values is at most `max |l| |h|`, so the error of the mean is at most `2 n u` times that.

Note: overflow and underflow are not modelled

### C112. Which curves check_curve and curve_boot accept (proved)

Modelled code: `mlpaper/classification.py:check_curve`, `mlpaper/classification.py:curve_boot`.
Proof: Model: `checkCurve`, `checkGrid`, `curveBoot` in `Model/CurveBoot.lean`; spec `Drawable`, `CoversGrid` in `Spec/CurveBoot.lean`, in terms of order and finiteness. Proof: `all(diff >= 0)` for finite rows is monotonicity.

* `C112_reject` (`Props/CheckCurve.lean`): Rejected curves: A set of curves that cannot be drawn is an AssertionError, whatever the grid.
* `C112_accept` (`Props/CheckCurve.lean`): No grid: Without a grid the curves that can be drawn are accepted and returned.
* `C112_grid` (`Props/CheckCurve.lean`): Grid: With a grid of at least one point, curves that can be drawn are accepted if they cover the grid, and an AssertionError if they do not. A grid without points is an IndexError.
* `C112_curve_boot` (`Props/CheckCurve.lean`): `curve_boot`: Whatever the curve function, `curve_boot` only returns a result if the curve of the data and the curves of all bootstrap replicates can be drawn and cover the grid, by default 100 points from 0 to 1; with reference predictions, the curves of the reference can be drawn too.

Note: y values of -inf are accepted, as PRG curves need

### C113. The floating point model of areas, interpolation, curve_boot and curve_summary_table refines the exact one (proved)

Modelled code: `mlpaper/util.py:area`, `mlpaper/util.py:interp1d`, `mlpaper/classification.py:curve_boot`, `mlpaper/classification.py:curve_summary_table`.
Proof: Model: `Model/CurveRound.lean` (every operation of `util.py` 148–360 and `classification.py` 277–524 rounded). Proof: unfolding both, with C110 for `boot_util`.

* `C113_area` (`Props/CurveRoundExact.lean`): Areas: 
* `C113_step` (`Props/CurveRoundExact.lean`): Step functions: 
* `C113_interp` (`Props/CurveRoundExact.lean`): Interpolation: 
* `C113_curve_boot` (`Props/CurveRoundExact.lean`): `curve_boot`: 
* `C113_table` (`Props/CurveRoundExact.lean`): `curve_summary_table`: 

Note: overflow and underflow are not modelled

### C114. Accuracy of areas and interpolation in floating point arithmetic (proved)

Modelled code: `mlpaper/util.py:area`, `mlpaper/util.py:interp1d`, `mlpaper/util.py:eval_step_func`, `mlpaper/util.py:unique_take_last`, `mlpaper/classification.py:check_curve`.
Proof: Model: `areaR`, `interp1dR`, `evalStepFuncR`, `uniqueTakeLastR`, `checkCurveR` in `Model/CurveRound.lean`; the reference values are those of the exact model. Proof: every piece has a relative error (`Near`), then the error of sums along trees; for interpolation the slope, the product and the final addition in turn.

* `C114_check` (`Props/AreaRound.lean`): `check_curve`: It accepts and rejects the same curves as in exact arithmetic.
* `C114_take_last` (`Props/AreaRound.lean`): `unique_take_last`: Rounding does not change the result.
* `C114_step` (`Props/AreaRound.lean`): `eval_step_func`: Rounding does not change the result.
* `C114_previous` (`Props/AreaRound.lean`): Step interpolation: For every kind but "linear" rounding does not change the result.
* `C114_area` (`Props/AreaRound.lean`): Areas: For finite curves of `n ≥ 2` points with rising `x` and kind "previous" or "linear", `area` in floating point arithmetic gives one finite number per row; its distance from the exact area is at most `(1 + u)^(n+2) - 1` times the exact area below the absolute values.
* `C114_linear` (`Props/AreaRound.lean`): Linear interpolation: For a finite curve with rising `x` and values between `lo` and `hi` and a grid within the curve, every value is within `u max(|lo|, |hi|) + 6 u (hi - lo)` of the exact one, and equal to it at the points of the curve.

Note: np.interp and np.trapz as in numpy 1.15; no overflow or underflow

### C115. curve_boot and curve_summary_table in floating point arithmetic (proved)

Modelled code: `mlpaper/classification.py:curve_boot`, `mlpaper/classification.py:curve_summary_table`, `mlpaper/classification.py:check_curve`, `mlpaper/perf_curves.py:roc_curve`, `mlpaper/perf_curves.py:recall_precision_curve`, `mlpaper/perf_curves.py:prg_curve`.
Proof: Model: `curveBootR`, `curveSummaryTableR` in `Model/CurveRound.lean` with the curve functions of `Model/PerfRound.lean`; spec `UnitCurveAt`, `AreaOfR`, `CurveAtR`, `RefAreasOfR`. Proof: C104 (shape of the curves), C105 (they are computed), C107 (percentiles) and C114 (areas and values).

* `C115_prg_unit` (`Props/CurveBootDouble.lean`): The precision-recall-gain curve: where the precision-recall curve is computed, this one is too, and every precision gain is `-inf` or a number that is at most 1.
* `C115_double` (`Props/CurveBootDouble.lean`): Double precision: For the ROC curve of up to 3000 samples and the precision-recall and precision-recall-gain curves of up to 300, labels 0 and 1, predictions without NaN whose log-probabilities of label 1 are finite, a valid reference, a grid in [0, 1] (or the default) and a confidence between 0 and 1, `curve_boot` returns a result for every draw of the bootstrap, whatever the order in which `np.sum` adds. Areas of ROC and precision-recall curves and their error bars are between 0 and `1 + 1e-12`, all values of the curves and of their envelopes within `1e-15` of [0, 1]. (With precision-recall-gain curves: without pairs.)
* `C115_result` (`Props/CurveBootRound.lean`): Result: What `curve_boot` returns in floating point arithmetic, for any curve function: the estimate is the computed area of the curve without weights; error bar and p-value come from the computed areas of the curves with the bootstrap weights (0 becomes the float next to `1e-10`) and from those of the reference with the same weights; each row of the table has a grid point, the value of the curve and the percentiles of the values of the bootstrapped curves there.
* `C115_self` (`Props/CurveBootRound.lean`): The reference itself: With its own predictions (or others with the same log-probabilities of label 1) as reference a method gets p-value exactly 1; with `pairwise_CI` the error bar is exactly 0, provided the estimate is finite.
* `C115_coherent` (`Props/CurveBootRound.lean`): Coherence: Whatever the curve function: the p-value is in [0, 1]; the error bar is not negative and not NaN if the estimate is finite; at each grid point the lower end of the envelope is at most the upper end, and neither is NaN.
* `C115_paired` (`Props/CurveBootRound.lean`): Paired error bar: With `pairwise_CI` and reference predictions, too, the error bar is neither negative nor NaN, whatever the curve function, if the computed areas of the method and of the reference (without weights) are finite.
* `C115_success` (`Props/CurveBootRoundOk.lean`): Success: In floating point arithmetic with relative error `u` (at most 1/100), for labels 0 and 1, predictions without NaN where the log-probabilities of label 1 are finite, a valid reference, a grid in [0, 1] (or the default) and a confidence between 0 and 1: if the curve function gives curves from 0 to 1 with at most `N` points, then `curve_boot` returns a result. The estimate is not NaN and not `+inf`, and for curves with values in [0, 1] it is between 0 and `(1 + u) ^ (N + 2)`, the error bar at most `(1 + u) ^ (N + 3)`; the p-value is in [0, 1]; every value of the curve and of its envelope is within `7u` of [0, 1] (only the upper end for `lo = -inf`).
* `C115_table_cells` (`Props/CurveTableRound.lean`): Table, cells: The table has a row for each method and a cell for each curve, each the `curve_boot` result for that method and curve; the curve dump has an entry for each method and curve, which is the curve of the same call.
* `C115_table_dump` (`Props/CurveTableRound.lean`): Table, the dump: Exactly one entry for each method and curve.
* `C115_table_missing` (`Props/CurveTableRound.lean`): Table, the reference: The p-value is NaN exactly for the reference, otherwise it is in [0, 1]. With `pairwise_CI` the error bar of the reference is NaN; without, no error bar of a finite estimate is.
* `C115_table_reject` (`Props/CurveTableRound.lean`): Table, rejected input: A label vector of another length, an unknown reference method, no rows, no labels or no curves: AssertionError.
* `C115_table_success` (`Props/CurveTableRound.lean`): Table, success: In double precision: for a table of finite predictions of two labels and labels 0 and 1 the curve summary succeeds for every draw of the bootstrap, with ROC curves for up to 3000 samples, with precision-recall and (without `pairwise_CI`) precision-recall-gain curves for up to 300.

Note: larger samples are not covered because C105 bounds the rounding of the cumulative sums in the worst case

### C116. Accuracy of the area under the curve in floating point arithmetic (proved)

Modelled code: `mlpaper/perf_curves.py:roc_curve`, `mlpaper/perf_curves.py:recall_precision_curve`, `mlpaper/util.py:area`, `mlpaper/classification.py:curve_boot`.
Proof: Model: `rocCurveR`, `recallPrecisionCurveR`, `areaR`, `curveBootR`; the reference value is the spec's `mannWhitney` (for recall-precision the exact area of the exact model). Proof: C106 bounds each rate, `trap_area_within`/`rect_area_within` sum the errors over the pieces, C114 bounds the rounding of the sum, C68 turns the exact area into the statistic.

* `C116_double` (`Props/AucDouble.lean`): Double precision: For up to `2^40` samples of both classes, without weights, the computed area under the ROC curve is within `6 n / 2^53` of the Mann-Whitney statistic, and that under the recall-precision curve within `8 n / 2^53` of the exact one.
* `C116_bootstrap` (`Props/AucDouble.lean`): Bootstrap: For up to 3000 samples of both classes, in every replicate of the bootstrap that draws a negative sample the computed area under the ROC curve is within `37 n^2 / 2^53` of the Mann-Whitney statistic of the weighted samples.
* `C116_curve_boot` (`Props/AucDouble.lean`): `curve_boot`: Whenever `curve_boot` returns for the ROC curve, with labels of both classes and up to `2^40` samples, the reported area is a number within `6 n / 2^53` of the share of correctly ordered pairs of a positive and a negative sample.
* `C116_roc` (`Props/AucRound.lean`): Roc: The area under a ROC curve as computed in floating point arithmetic, with weights or without: for `n` samples of both classes and rounding errors of at most `u`, if `12 n u` times the total weight is at most the weight of the negative samples, it is within `36 n u` times the ratio of total to negative weight of the Mann-Whitney statistic of the (weighted) samples, whatever the order in which `np.sum` adds.
* `C116_unweighted` (`Props/AucRound.lean`): Without weights: Without weights the computed area under the ROC curve is within `6 n u` of the Mann-Whitney statistic, and the computed area under the recall-precision curve within `8 n u` of the exact one.

Note: replicates that drew no negative sample are not covered by the bound: their false positive rates are ratios of sums of tiny weights added after large ones

### C117. A bootstrap replicate measures the resampled data (proved)

Modelled code: `mlpaper/boot_util.py:boot_weights`, `mlpaper/perf_curves.py:roc_curve`, `mlpaper/classification.py:curve_boot`.
Proof: Model: `bootWeights`, `rocCurve`, `area`, and their floating point versions; spec `usedCounts`, `repeated`, `mannWhitney`. Proof: the statistic is a ratio of sums over pairs, does not change if the weights of one class are scaled, and adding weight to a ratio with numerator at most its denominator moves it by at most the relative change of the denominator.

* `C117_statistic` (`Props/BootAuc.lean`): Statistic: Weights that count how often each sample was drawn, with a small `ε` for 0: the Mann-Whitney statistic is within `2 n ε` of that of the resampled data. A class of which nothing was drawn is used as a whole.
* `C117_area` (`Props/BootAuc.lean`): The area under the ROC curve of a bootstrap replicate is within `2 n ε` of the area under the ROC curve of the resampled data, where `ε` is the weight of samples that were not drawn. If nothing was drawn of a class then all its samples count.
* `C117_double` (`Props/BootAuc.lean`): Doubles: In double precision the area of each replicate that drew a negative sample is within `37 n² / 2^53` plus `2 n ε` of the Mann-Whitney statistic of the resampled data, where `ε` is the double nearest to 1e-10.

### C118. Every sound summary can be formatted (proved)

Modelled code: `mlpaper/sciprint.py:just_format_it`, `mlpaper/sciprint.py:format_table`, `mlpaper/sciprint.py:decimalize`, `mlpaper/sciprint.py:find_shift`, `mlpaper/mlpaper.py:loss_summary_table`.
Proof: C118_criterion characterises success of the whole formatter from C10 (conversion), C20 (columns), C15 (a best shift exists), C16 (padding) and C18 (headers). The conditions on the numbers follow from where the last digit of a rounded float is (createDecimal_exp). C118_pipeline combines this with C108_table.

* `C118_cell` (`Props/FormatFloats.lean`): Sufficient condition on the numbers: Every cell is formatted if the p-value is NaN or between 0 and 1, the estimate is a number, and either the error bar is unused (and, without a shift, the estimate is below 99999.5 in absolute value) or it is usable with an estimate at most `10^26` times as large (and, without a shift, at most 99).
* `C118_floats` (`Props/FormatFloats.lean`): A table of numbers is formatted: `just_format_it` returns a text, TeX or plain, for every table with at least one method and metric whose cells meet the condition of `C118_cell`.
* `C118_not_a_number` (`Props/FormatFloats.lean`): Estimates that cannot be shown: No text is returned if some estimate is NaN, or infinite on a side without a limit.
* `C118_unscaled` (`Props/FormatFloats.lean`): Without a shift: With `shift_mod=None` no text is returned if some estimate within the limits has a usable error bar above 99, or no usable error bar and 99999.5 or more in absolute value.
* `C118_criterion` (`Props/FormatOk.lean`): Exactly when a table is formatted: `just_format_it` returns a text, TeX or plain, exactly when there is at least one method and one metric, the shift modulus, if given, is at least 1, and every cell is converted by `decimalize` to a printable cell.
* `C118_pipeline` (`Props/FormatPipeline.lean`): From the losses to the text: With `pairwise_CI`, finite losses within valid limits, at least one row, a known method and a confidence in (0,1), `loss_summary_table` computes a table in floating point arithmetic, and `just_format_it` with a shift modulus of at least 1 turns it into a text, TeX or plain, whatever the limits, units and outcomes of the bootstrap draws, unless an estimate is more than `10^26` times its positive error bar.

Note: Error bars and estimates are the exact values of the floats. The pipeline theorem is about the floating point model of loss_summary_table with pairwise_CI.

### C119. Losses and benchmarks in floating point arithmetic refine the exact ones (proved)

Modelled code: `mlpaper/classification.py:hard_loss`, `mlpaper/classification.py:brier_loss`, `mlpaper/classification.py:spherical_loss`, `mlpaper/classification.py:loss_table`, `mlpaper/classification.py:get_pred_log_prob`, `mlpaper/classification.py:summary_table`, `mlpaper/classification.py:just_benchmark`, `mlpaper/regression.py:square_loss`, `mlpaper/regression.py:abs_loss`, `mlpaper/regression.py:log_loss`, `mlpaper/regression.py:just_benchmark`, `mlpaper/util.py:normalize`.
Proof: Model.LossRound has one rounded version for each function, parametrised by a library `Lib` (rounding, sums, sqrt, log, exp, ...) and an inner product. Each theorem instantiates the library with `exactLib` and shows equality with the exact model, error results included.

* `C119_normalize` (`Props/LossRoundExact.lean`): `normalize`: 
* `C119_decision` (`Props/LossRoundExact.lean`): Decisions: 
* `C119_hard_loss` (`Props/LossRoundExact.lean`): Hard losses: 
* `C119_brier_loss` (`Props/LossRoundExact.lean`): Brier loss: 
* `C119_spherical_loss` (`Props/LossRoundExact.lean`): Spherical loss: 
* `C119_std_class_loss` (`Props/LossRoundExact.lean`): The standard losses: 
* `C119_loss_table` (`Props/LossRoundExact.lean`): Loss tables: 
* `C119_class_noise` (`Props/LossRoundExact.lean`): `justnoise` for classification: 
* `C119_predictions` (`Props/LossRoundExact.lean`): `get_pred_log_prob`: 
* `C119_summary_table` (`Props/LossRoundExact.lean`): `summary_table`: 
* `C119_std_curves` (`Props/LossRoundExact.lean`): The standard curves: 
* `C119_class_benchmark` (`Props/LossRoundExact.lean`): `just_benchmark` for classification: 
* `C119_square_loss` (`Props/LossRoundExact.lean`): Square loss: 
* `C119_abs_loss` (`Props/LossRoundExact.lean`): Absolute loss: 
* `C119_log_loss` (`Props/LossRoundExact.lean`): Log loss of gaussian predictions: 
* `C119_std_regr_loss` (`Props/LossRoundExact.lean`): The standard losses for regression: 
* `C119_regr_noise` (`Props/LossRoundExact.lean`): `justnoise` for regression: 
* `C119_regr_benchmark` (`Props/LossRoundExact.lean`): `just_benchmark` for regression: 

Note: Anything proved about the rounded model for all libraries, as in C120, therefore holds of the exact model too, and the rounded model does the same steps as the code in the same order.

### C120. Ranges of the losses survive rounding (proved)

Modelled code: `mlpaper/util.py:normalize`, `mlpaper/classification.py:hard_loss`, `mlpaper/classification.py:hard_loss_decision`, `mlpaper/classification.py:log_loss`, `mlpaper/classification.py:brier_loss`, `mlpaper/classification.py:spherical_loss`.
Proof: Sums of non-negative floats along any tree are at least each of their terms and at most their number (tree_ge_leaf, sum_le_length), so logsumexp is at least the largest entry and the differences round to at most 0; squares of numbers in [-1,1] round into [0,1]. Certain predictions have only zeros and ones in every sum, which are added exactly. doubleLib_expLog, doubleDot_error: double precision satisfies what is asked.

* `C120_log` (`Props/LossDouble.lean`): Log loss: For log-probabilities up to 0 the log loss is the negative log-probability of the true label as stored, without rounding: a number that is not negative, or plus infinity for an impossible label.
* `C120_zero_one_double` (`Props/LossDouble.lean`): Zero-one loss in double precision: With up to a million labels, certainty of the true label costs 0, certainty of another label costs 1.
* `C120_normalize` (`Props/LossRange.lean`): `normalize`: If every row has only floats and `-inf` in it, not only `-inf`, then `normalize` returns rows of the same kind in which no entry is positive: no probability exceeds 1, whatever the rounding. Impossible labels stay impossible, possible ones possible, and the order of the entries stays.
* `C120_brier` (`Props/LossRange.lean`): Brier loss: For log-probabilities up to 0 every loss is a number, not negative and at most the number of labels, times the rounded factor if rescaled.
* `C120_brier_certain` (`Props/LossRange.lean`): Brier loss of certain predictions: Certainty of the true label costs exactly 0, certainty of another label exactly 2, times the rounded factor if rescaled.
* `C120_sphere` (`Props/LossRange.lean`): Spherical loss: For rows of floats and `-inf`, not only `-inf`, normalised or not, every loss is a number between -1 and 0, and after rescaling between 0 and the rounded `1/c`, `c` being the computed scale, which is positive.
* `C120_normalize_certain` (`Props/LossRange.lean`): `normalize` of certain predictions: They are returned unchanged.
* `C120_sphere_certain` (`Props/LossRange.lean`): Spherical loss of certain predictions: Certainty of the true label costs exactly -1, or 0 after rescaling; certainty of another label exactly 0, or the rounded `1/c` after rescaling.
* `C120_hard` (`Props/LossRangeHard.lean`): Hard loss: `hard_loss` returns for every sample the loss of the first action whose computed expected loss is least: one of the entries of the loss matrix in the row of the true label, unchanged.
* `C120_zero_one` (`Props/LossRangeHard.lean`): Zero-one loss: Without a loss matrix every loss is exactly 0 or exactly 1, and at most one label would get 0: the label whose computed probability of error is least.
* `C120_near_optimal` (`Props/LossRangeHard.lean`): Decisions are nearly optimal: If inner products of vectors with one entry for each label have a relative error of at most `g`, the action whose loss is charged has, under the computed probabilities, an exact expected loss that exceeds that of any other action by at most `g` times the expected absolute losses of the two actions.
* `C120_zero_one_certain` (`Props/LossRangeHard.lean`): Zero-one loss of certain predictions: Certainty of the true label costs exactly 0, certainty of another label exactly 1, provided that inner products have a relative error below 1.

Note: Overflow and underflow are not modelled. `DotError` covers any order of additions and fused operations of np.dot.

### C121. Classification benchmark never fails in double precision (proved)

Modelled code: `mlpaper/classification.py:just_benchmark`, `mlpaper/classification.py:summary_table`, `mlpaper/classification.py:get_pred_log_prob`, `mlpaper/classification.py:loss_table`, `mlpaper/classification.py:JustNoise`, `mlpaper/mlpaper.py:loss_summary_table`, `mlpaper/boot_util.py`.
Proof: Composition of the floating point model of all modules: predictions (PredRound), losses (C120), loss_table (C121_columns), loss_summary_table (C108, C109), curve_boot (C115). The limits must be infinite or on a grid of floats since loss_summary_table asserts that clipping does not move the computed mean (C109).

* `C121_loss_summary` (`Props/BenchRound.lean`): Loss summary: In floating point arithmetic `loss_table` followed by `loss_summary_table` succeeds with the standard losses for any number of labels, if the predictions are floats without an excluded label and the limits cover the losses.
* `C121_curve_range` (`Props/BenchRound.lean`): Curve cells: In double precision the estimates of ROC and precision-recall curves are between 0 and `1 + 1e-12`; no estimate is NaN or `+inf`; all values of the curves written to the dump are at most `1 + 1e-15`.
* `C121_layout` (`Props/BenchRound.lean`): Layout: The table has the columns of the losses, then those of the curves in the order given; its rows are those of the loss table. The cells of the losses are those of `loss_summary_table`, the cells of the curves those of `curve_boot` for that method and curve, whose curve is in the dump.
* `C121_summary` (`Props/BenchRound.lean`): Summary table: In double precision `summary_table` with the standard losses and curves succeeds on every table of predictions of two labels that are floats and exclude no label, for every outcome of the bootstrap draws; all its cells are meaningful.
* `C121_benchmark` (`Props/BenchRound.lean`): Benchmark: In double precision `just_benchmark` never fails: data that pass the checks, methods that predict log-probabilities that are floats, a finite floor, labels 0 and 1, at most as many test points as the curves allow (300 for the standard curves), limits that cover the losses, and any outcome of the bootstrap draws. The table has a row for each method and a cell for each loss and curve, all meaningful.
* `C121_noise` (`Props/BenchRound.lean`): `justnoise`: In floating point arithmetic `JustNoise` fits labels in range; its prediction for a label is the logarithm of a computed frequency between 0 and 1, which is 0 exactly for a label that does not occur if the pseudo count is 0, and at least as large as that of any label that does not occur more often. The predictions are valid for `get_pred_log_prob`.
* `C121_columns` (`Props/LossTableRound.lean`): Columns: The floating point `loss_table` has a column for every metric and method, the metric of the rounded normalised predictions of that method, and no other columns; it succeeds if the metrics succeed on the normalised predictions.
* `C121_loss_table` (`Props/LossTableRound.lean`): Loss table: In floating point arithmetic `loss_table` with the standard losses succeeds on predictions of floats and labels in range. For every method the log losses are non-negative or `+inf`, the latter exactly where the method has excluded the true label; the other losses are numbers: Brier and spherical losses non-negative and bounded, zero-one losses 0 or 1.
* `C121_predictions` (`Props/PredRound.lean`): Predictions: In floating point arithmetic `get_pred_log_prob` succeeds if the methods predict floats; the rows of its table are floats or `-inf`, at most 0; with a finite floor all entries are finite.

Note: The example runs the theorem for JustNoise and a classifier that excludes a label, in double precision. Overflow and underflow are not modelled; `np.sum` may add in any order; np.log must return floats.

### C122. Regression losses and benchmark in floating point (proved)

Modelled code: `mlpaper/regression.py:square_loss`, `mlpaper/regression.py:abs_loss`, `mlpaper/regression.py:log_loss`, `mlpaper/regression.py:JustNoise`, `mlpaper/regression.py:just_benchmark`, `mlpaper/mlpaper.py:loss_summary_table`.
Proof: Model of the losses with a rounding after every operation (Model/LossRound.lean). Standard error analysis with factors 1+d for the accuracy; rounding is monotone and odd, which gives the order of the losses; the benchmark composes C88, the loss table and C108/C109.

* `C122_loss_table` (`Props/RegrBenchRound.lean`): Loss table: For targets and predictions that are numbers, with positive standard deviations, `loss_table` with the rounded standard losses succeeds. Its columns contain for each method and sample the rounded losses.
* `C122_benchmark` (`Props/RegrBenchRound.lean`): Benchmark: In double precision `just_benchmark` for regressors never fails: data of the right shapes, targets that are numbers, methods that predict numbers with standard deviations that are positive after flooring, limits that cover the losses, and any outcome of the bootstrap draws. The table has a row for each method; its estimates are the computed means of the computed losses, not negative for the squared and the absolute error; error bars are not negative, p-values are in [0, 1] and missing for the reference.
* `C122_noise_fit` (`Props/RegrNoiseRound.lean`): Justnoise: `fit` accepts vectors of at least two targets, and nothing else; it computes the mean and a standard deviation that is at least 0, and 0 exactly if all targets are equal to the computed mean.
* `C122_noise_predict` (`Props/RegrNoiseRound.lean`): Justnoise predicts constants: 
* `C122_noise_degenerate` (`Props/RegrNoiseRound.lean`): Degenerate targets: The losses reject the predictions of `JustNoise` if and only if all targets are equal to their computed mean. So they accept them whenever two targets differ. If the targets are all equal to a number whose multiples are floats, such as an integer, the losses raise AssertionError.
* `C122_noise_accident` (`Props/RegrNoiseRound.lean`): Constant targets by accident: Three targets of 0.1 in double precision are not equal to their computed mean, so the standard deviation is positive and the losses accept the predictions; with exact arithmetic (C87_degenerate) and for three targets of 1 they raise AssertionError.
* `C122_log_double` (`Props/RegrNoiseRound.lean`): Log loss in double precision: It is correct up to 2e-15 times the sum of the sizes of its three terms.
* `C122_reject` (`Props/RegrRound.lean`): Acceptance: The rounded losses raise on the same input as the exact ones: everything but vectors of numbers of one length with positive standard deviations.
* `C122_abs` (`Props/RegrRound.lean`): Absolute loss: It is a number that is at least 0, 0 exactly for a perfect mean, and correct up to one rounding.
* `C122_square` (`Props/RegrRound.lean`): Square loss: It is a number that is at least 0, 0 exactly for a perfect mean, and correct up to three roundings.
* `C122_square_abs` (`Props/RegrRound.lean`): Relation: Every square loss is the rounded square of the absolute loss.
* `C122_closer` (`Props/RegrRound.lean`): Better means: If every mean is at least as close to its target as another prediction with the same standard deviations, none of the three computed losses of any sample is larger, in spite of rounding. In particular the targets themselves are the means with the least loss.
* `C122_log` (`Props/RegrRound.lean`): Log loss: If the logarithms have a relative error of at most `g`, where `1 + g` is at least `(1+u)^6`, the computed log loss is correct up to a relative error of `(1+g)(1+u)^2 - 1` of its three terms.

Note: Overflow and underflow are not modelled: a computed variance is 0 only if all targets equal the mean. `scipy.stats.norm.logpdf` is modelled with the float next to pi. np.sum may add in any order.

### C123. cummax_strict: copy and in-place operation (proved)

Modelled code: `mlpaper/util.py:cummax_strict`.
Proof: Model of the function on a heap of arrays, entry by entry as the loop writes (Model/UtilHeap.lean). Invariant of the loop: the part before index ii is final, the part from ii on is still the input. So the loop writes what the functional model computes, and the statements follow from the frame of single writes.

* `C123_copy` (`Props/CummaxHeap.lean`): with `copy=True` (the default) no existing array is changed, whether the call returns or raises; if it returns, the result is a new array with the values of the functional model.
* `C123_inplace` (`Props/CummaxHeap.lean`): with `copy=False` the call allocates nothing, changes no array but the argument, and returns the argument itself, which then holds the values of the functional model.
* `C123_inplace_above` (`Props/CummaxHeap.lean`): whatever the outcome of a call with `copy=False`, the argument keeps its length and its first entry, and no entry becomes smaller (a NaN counting as largest). So a failed call has already changed the caller's array, but only upwards.
* `C123_unchanged` (`Props/CummaxHeap.lean`): for an array without NaN, a call with `copy=False` leaves the argument as it was exactly if it was strictly increasing, or is `+inf` from some entry on and strictly increasing up to there.

Note: Different references of the heap never share entries (no numpy views).

### C124. Custom format strings for clipped estimates and p-values (proved)

Modelled code: `mlpaper/sciprint.py:print_estimate`, `mlpaper/sciprint.py:print_pval`, `mlpaper/constants.py:GEN_FMT`.
Proof: Model of str.format with one argument as a scanner with the numbering state (Model/FormatStr.lean) and of both functions with the format strings as arguments. Induction over the quoted text and the field.

* `C124_template` (`Props/FormatStr.lean`): a format string made of text (with doubled braces) around one field `{name:sp}`, the name being `0` or empty, gives that text around the argument formatted with `sp`; an exception of the formatting is passed on.
* `C124_default_strings` (`Props/FormatStr.lean`): the default format strings: the number alone, or after `>` or `<`.
* `C124_lone_brace` (`Props/FormatStr.lean`): a brace that is neither doubled nor part of a field is a ValueError: a lone closing one, and an opening one that is never closed.
* `C124_bad_name` (`Props/FormatStr.lean`): a field with any other name: a positive number is an IndexError, a word a KeyError. (Numbers of more than 18 digits are left out, as Python has a limit for them.)
* `C124_many` (`Props/FormatStr.lean`): several fields. If all are numbered `0`, the argument is formatted by each of them in turn, with the texts in between; the first exception is passed on.
* `C124_mixed` (`Props/FormatStr.lean`): numbered and unnumbered fields cannot be mixed (ValueError), and a second unnumbered field asks for a second argument (IndexError).
* `C124_default` (`Props/FormatStr.lean`): with the default format strings the functions are those of the other theorems.
* `C124_estimate` (`Props/FormatStr.lean`): the format strings matter only for a clipped estimate, where the limit in the shifted scale is formatted with `above_fmt` or `below_fmt`; in all other cases `print_estimate` does what it does with the default ones, however malformed they are.
* `C124_pval` (`Props/FormatStr.lean`): `print_pval` uses `below_fmt` only for a p-value that is not above the smallest positive one of its precision, which is then formatted; in all other cases it does what it does with the default.

Note: `Decimal.__format__` is a parameter of which only the meaning of `,f` is used.

### C125. Accuracy of normalisation, classification losses and JustNoise in floating point (proved)

Modelled code: `mlpaper/util.py:normalize`, `mlpaper/classification.py:brier_loss`, `mlpaper/classification.py:spherical_loss`, `mlpaper/classification.py:JustNoise`.
Proof: Model of the losses in floating point (Model/LossRound.lean). Error analysis step by step: exp of a perturbed argument, sums along any tree, log of a relatively perturbed total.

* `C125_logsumexp` (`Props/LogSumExpRound.lean`): `logsumexp`: For a row of `n` numbers and `-inf`, not only `-inf`, `logsumexp` returns a number whose error is at most `u (6 n + |s|)`, `s` being the exact logarithm of the total; however large or small the entries are.
* `C125_normalize` (`Props/LogSumExpRound.lean`): `normalize`: Every normalised entry is correct up to `u (|v| + 7 n + 2 |s|)`, `v` being the exact value, `n` the number of labels and `s` the exact logarithm of the total of the row; `-inf` stays as it is.
* `C125_sum_one` (`Props/LogSumExpRound.lean`): Probabilities sum to one: After `normalize` the exact sum of the probabilities of a row differs from 1 by at most `u (10 n + 3 |s|)`, for entries up to `1 / (100 u)` in size (`10^13` in double precision).
* `C125_brier` (`Props/LossAccuracy.lean`): Brier loss: For log-probabilities up to 0 the error of every Brier loss is at most `n u (7 + 4 b)` times the factor `n/(n-1)` of the rescaled loss (1 if not rescaled), `b` being the exact loss before rescaling; `b` is at most 2 for a distribution.
* `C125_sphere` (`Props/LossAccuracy.lean`): Spherical loss: The error of every spherical loss is at most `u (10 n + 6 |l|)`, rescaled at most `u (24 n + 7 |l|) / c`, `c` being the exact scale, `n` the number of labels and `l` the logarithm of the Euclidean norm of the probabilities, which is between `-log n / 2` and 0 for a distribution.
* `C125_noise` (`Props/LossAccuracy.lean`): `justnoise`: The predicted log-probability of a label is the logarithm of its (smoothed) frequency `f` up to `u (8 + 2 |log f|)`; a label with frequency 0 gets `-inf`.
* `C125_double` (`Props/LossAccuracyDouble.lean`): Double precision: With up to 1000 labels and probabilities whose sum is between one half and two (normalised or not quite), every Brier loss and every spherical loss computed in double precision differs from the exact one by at most `10^-11`.

Note: No overflow or underflow. The log loss is the negated prediction without rounding (C120_log).

### C126. Accuracy of the benchmark's losses in floating point (proved)

Modelled code: `mlpaper/classification.py:just_benchmark`, `mlpaper/classification.py:get_pred_log_prob`, `mlpaper/classification.py:loss_table`, `mlpaper/mlpaper.py:loss_summary_table`.
Proof: Model of the benchmark in floating point (Model/LossRound.lean). Rows that are normalised up to a shift error T; effect of T on each loss; two normalisations compose to 2 T1 + T2; error of the mean by C111.

* `C126_losses` (`Props/BenchAccuracy.lean`): Losses: Let the rows of `q` be floats and the normalised rows of `p` up to an error of `T` in each entry. Then the computed losses of `q` are the exact losses of the shares of `p`: the log loss up to `T`, the Brier loss up to `(18 n u + 3 T)` times its scale, the spherical loss up to `(31 n u + 3 T)` over its scale.
* `C126_table` (`Props/BenchAccuracyTable.lean`): Loss tables: Let the predictions of a table be floats of absolute value at most `B`. Whenever `loss_table` and `loss_summary_table` return tables for the standard losses, the estimate of each method for the log loss, the Brier loss and the spherical loss is the average of the exact losses, with a relative error of at most `2 N u` and an absolute error of at most `u (88 B + 440 n)`, for `N` samples and `n` labels.
* `C126_benchmark` (`Props/BenchAccuracyTable.lean`): `just_benchmark`: Let the predictions of the methods, raised to the floor `min_pred_log_prob`, be floats of absolute value at most `B`. Whenever `just_benchmark` returns tables for the standard losses, the estimate of each method for the log loss, the Brier loss and the spherical loss is the average over the test set of the exact loss of the normalised predictions of the estimator, with a relative error of at most `2 N u` and an absolute error of at most `u (352 B + 968 n)`, for `N` samples and `n` labels.
* `C126_double` (`Props/BenchAccuracyTable.lean`): in double precision.** With at most 1000 labels, at most a million test samples, a floor of at least -1000 and log-probabilities of at most 0, the estimates of `just_benchmark` are accurate to nine digits after the point, up to the rounding of the average.

Note: No overflow or underflow. The zero-one loss is not in the list: rounding may create ties, for which C121 gives the range only.

### C127. Curves and their bootstrap neither overflow nor underflow (proved)

Modelled code: `mlpaper/perf_curves.py`, `mlpaper/util.py:area`, `mlpaper/util.py:interp1d`, `mlpaper/boot_util.py`, `mlpaper/classification.py:curve_boot`, `mlpaper/classification.py:curve_summary_table`.
Proof: IEEE rounding with exponent limits (Model/Ieee.lean), shown to be rounding to nearest even on the doubles of Spec/Double.lean. Every intermediate result is shown to be a multiple of 2^-k below 2^e (OnGrid), with k and e followed through each function (counts, rates, gains, areas, interpolation, percentiles); inside these limits the IEEE rounding equals binary64.

* `C127_curve_boot` (`Props/CurveBootIeee.lean`): `curve_boot`: For the curves of the package and inputs in range, `curve_boot` in IEEE 754 double precision returns what it returns (or fails in the way it fails) when there is no smallest and no largest exponent, whatever the order in which `np.sum` adds.
* `C127_table` (`Props/CurveBootIeee.lean`): `curve_summary_table`: The same for the summary table and the dump of the curves.
* `C127_bootstrap` (`Props/CurveIeeeTheorems.lean`): Error bars, tests and intervals: The functions of `boot_util` return the same with the exponents of IEEE 754 as without limits for exponents, for up to `2 ^ 53` replicates.
* `C127_curves` (`Props/CurveIeeeTheorems.lean`): Curves and areas: The curves of the package return the same with the exponents of IEEE 754 as without limits for exponents, and so does the area under them.
* `C127_table_success` (`Props/CurveIeeeTheorems.lean`): Success: In IEEE 754 double precision, with its limits for exponents: for a table of finite predictions of two labels and labels 0 and 1 the curve summary succeeds for every draw of the bootstrap, with ROC curves for up to 3000 samples, with precision-recall and (without `pairwise_CI`) precision-recall-gain curves for up to 300.
* `C127_doubles` (`Props/IeeeNearest.lean`): The doubles: 
* `C127_nearest` (`Props/IeeeNearest.lean`): Rounding: The result of an operation, if it is finite, is a double, no double is nearer to the exact result, and if another double is as near then the last bit of the result is 0.
* `C127_overflow` (`Props/IeeeNearest.lean`): Overflow: An operation overflows when the exact result is at least half a unit in the last place beyond the largest double.

Note: Losses (exp, log, sqrt) are not covered: there the theorems assume that nothing overflows or underflows. The sign of zero is not modelled.

### C128. loss_summary_table survives underflow in double precision (proved)

Modelled code: `mlpaper/mlpaper.py:loss_summary_table`, `mlpaper/mlpaper.py:t_test`, `mlpaper/mlpaper.py:bernstein_EB`, `mlpaper/mlpaper.py:bernstein_test`, `mlpaper/mlpaper.py:clip_EB`, `mlpaper/util.py:clip_chk`.
Proof: GradualRounding (Spec/FloatLib.lean) describes a rounding with relative error u plus absolute error tiny that is purely relative on sums of floats and exact on small differences of floats; the lemmas of MeanRound, StatsRound and TableGradual are proved for every such rounding. C108 and C109 are the case tiny = 0. IEEE rounding (Model/Ieee.lean) is shown to be of this kind with u = 2^-53, tiny = 2^-1022.

* `C128_mean_and_EB` (`Props/TableGradual.lean`): Mean and error bar: For finite data within the limits `get_mean_and_EB` succeeds in floating point arithmetic with every method: it returns the computed mean clipped to the limits and an error bar between the minimum and the largest possible one.
* `C128_test` (`Props/TableGradual.lean`): Tests: For finite data within the limits every test succeeds and returns a p-value between 0 and 1.
* `C128_combined` (`Props/TableGradual.lean`): All at once: For finite data within the limits `get_mean_EB_test` succeeds and returns, to the last bit, what `get_mean_and_EB` and `get_test` return for the same draws.
* `C128_cell` (`Props/TableGradual.lean`): Cells: With `pairwise_CI` the cell of a method in comparison with the reference is always computed: the mean is `np.mean` of its losses, the error bar is a number or infinite, at least 0 and at most the largest possible error of the difference, the p-value lies between 0 and 1. The cell of the reference has the mean only.
* `C128_table` (`Props/TableGradual.lean`): The table: With `pairwise_CI`, finite losses within valid limits, at least one row, a known method and a confidence in (0,1) `loss_summary_table` produces the table in floating point arithmetic too, for every outcome of the bootstrap draws. Every cell has the computed mean of its losses; the reference has no error bar and no p-value; for the others the error bar is not NaN and not negative and the p-value lies between 0 and 1.
* `C128_cell_unpaired` (`Props/TableGradual.lean`): Cells: Without `pairwise_CI` the cell is computed exactly if the computed mean of the losses lies within the limits; otherwise clipping has moved it and the comparison `mu_ == mu` raises an AssertionError, although every loss is within the limits.
* `C128_table_unpaired` (`Props/TableGradual.lean`): The table: Without `pairwise_CI`, with finite losses within valid limits, at least one row, a known method and a confidence in (0,1): if the computed mean of every column lies within the limits of its metric, the table is produced; if the computed mean of one column does not, the call ends in an AssertionError.
* `C128_at_most` (`Props/TableGradual.lean`): Limits on a grid: If the losses are at most `h` and `h`, `2h`, ..., `n·h` are floats, the computed mean is at most `h`.
* `C128_at_least` (`Props/TableGradual.lean`): Limits on a grid: If the losses are at least `l` and `l`, `2l`, ..., `n·l` are floats, the computed mean is at least `l`.
* `C128_table_grid` (`Props/TableGradual.lean`): Limits on a grid: Without `pairwise_CI`, with finite losses within valid limits that are infinite or on a grid, the table is produced for every outcome of the bootstrap draws.
* `C128_ieee_paired` (`Props/TableIeee.lean`): Doubles with `pairwise_ci`: If every operation rounds to doubles with gradual underflow, the table is produced for all finite losses within limits that are doubles (or infinite) and equal or at least `2 ^ -985` apart, for up to nine thousand million rows, every confidence level in (0,1) that is a double, every method and all bootstrap draws.
* `C128_ieee_unpaired` (`Props/TableIeee.lean`): Doubles without `pairwise_ci`: The same for losses that are doubles: if every computed mean lies within the limits, the table is produced; if one does not, the call ends in an AssertionError.
* `C128_ieee_integers` (`Props/TableIeee.lean`): Integer limits: Without `pairwise_CI` the table is produced if the limits are infinite or integers whose product with the number of rows is at most `2 ^ 53`.
* `C128_mean` (`Props/TableIeee.lean`): Accuracy: The computed mean of `n` doubles differs from their average by at most `2 n / 2 ^ 53` times the average of their absolute values plus `2 ^ -1022`, whatever the order in which `np.sum` adds.

Note: Overflow is not part of this property: ieeeRound has no largest exponent. The contract on np.roots asks for roots with the right signs for every positive leading coefficient.

### C129. loss_summary_table does not overflow in double precision (proved)

Modelled code: `mlpaper/mlpaper.py:loss_summary_table`, `mlpaper/mlpaper.py:t_test`, `mlpaper/mlpaper.py:t_EB`, `mlpaper/mlpaper.py:bernstein_EB`, `mlpaper/mlpaper.py:bernstein_test`, `mlpaper/mlpaper.py:_boot_EB_and_test`, `mlpaper/mlpaper.py:clip_EB`, `mlpaper/util.py:clip_chk`.
Proof: IeeeLib (Spec/IeeeLib.lean) is a library whose rounding follows IEEE 754 and is unknown on overflow. wideLib is the same library with ieeeRound, which has no largest exponent. StatsIeee, BernsteinIeee and TableOverflow bound every intermediate result by a power of two, function by function, and conclude that the two libraries give the same table; C128 is then applied to wideLib.

* `C129_no_overflow` (`Props/TableOverflow.lean`): No operation of `loss_summary_table` overflows: the outcome is the same whatever an overflowing operation would give. The losses may be infinite or NaN; finite losses are at most `2 ^ 200` (about `1.6e60`) in absolute value, and limits are moderate in the same way. The table may have up to nine thousand million rows.
* `C129_paired` (`Props/TableOverflow.lean`): With `pairwise_ci`: In IEEE arithmetic, with overflow as well as gradual underflow, the table is produced for all finite losses up to `2 ^ 200` within moderate limits, for up to nine thousand million rows, every confidence level in (0,1) that is a double, every method and all bootstrap draws.
* `C129_unpaired` (`Props/TableOverflow.lean`): Without `pairwise_ci`: The same for losses that are doubles: if every computed mean lies within the limits, the table is produced; if one does not, the call ends in an AssertionError.
* `C129_integers` (`Props/TableOverflow.lean`): Integer limits: Without `pairwise_CI` the table is produced if the limits are infinite or integers whose product with the number of rows is at most `2 ^ 53`, as for the losses between 0 and 1.
* `C129_mean` (`Props/TableOverflow.lean`): Accuracy: The mean of `n` doubles up to `2 ^ 900` differs from their average by at most `2 n / 2 ^ 53` times the average of their absolute values plus `2 ^ -1022`, in every order of summation.

Note: The bounds 2^200 are far from sharp. Overflow inside the implementations of sqrt, log, exp, np.roots and ss.t is not modelled; what they have to return is the contract IeeeLib.

### C130. t intervals and t tests are asymptotically valid for any distribution (proved)

Modelled code: `mlpaper/mlpaper.py:t_test`, `mlpaper/mlpaper.py:t_EB`, `mlpaper/mlpaper.py:get_mean_and_EB`.
Proof: Props/LargeSample.lean: central limit theorem and strong law of Mathlib, Slutsky's lemma, applied to the t statistic the code computes; convergence of the quantiles of the t distribution to the normal ones is obtained by applying the same result to normal data, for which C95 gives the exact law.

* `C130_t_EB` (`Props/LargeSample.lean`): Error bars: For a stream of data of any distribution with finite variance, the probability that the interval of `t_EB` around the average of the first `n` data contains the true mean tends to the confidence as `n` grows.
* `C130_t_test` (`Props/LargeSample.lean`): Tests: If the true mean is 0, the probability that the p-value of `t_test` on the first `n` data is at most `α` tends to `α`.
* `C130_mean_and_EB` (`Props/LargeSample.lean`): `get_mean_and_eb`: With limits that all data respect, finite or not, the probability that the mean and error bar with method `'t'` contain the true mean tends to the confidence.

Note: t_EB uses studentT of Spec/StudentT.lean as the reference distribution (exact in C95); real arithmetic.

### C131. The default loss table is asymptotically valid for any distribution of losses (proved)

Modelled code: `mlpaper/mlpaper.py:loss_summary_table`, `mlpaper/mlpaper.py:t_test`, `mlpaper/mlpaper.py:t_EB`, `mlpaper/mlpaper.py:get_mean_and_EB`.
Proof: GrowingTable (Props/LargeSampleTable.lean) says what the table contains; cells are identified by C51, then C130 is applied to the losses or the differences to the reference.

* `C131_error_bar` (`Props/LargeSampleTable.lean`): Error bars: Losses of a method that are independent between rows and have the same distribution of any kind with finite variance: without `pairwise_CI` the probability that the mean and error bar of the default method `'t'` contain the expected loss tends to the confidence as the number of rows grows.
* `C131_pairwise` (`Props/LargeSampleTable.lean`): Pairwise error bars: With `pairwise_CI` the probability that the difference of the two means and the error bar contain the expected difference tends to the confidence, if the differences to the reference are independent between rows and have the same distribution with finite variance.
* `C131_p_value` (`Props/LargeSampleTable.lean`): P-values: If the expected difference to the reference is 0, the probability that the p-value in the table is at most `α` tends to `α`, with and without `pairwise_CI`.

Note: Losses of different methods in a row may depend on each other; the rows are independent.

### C132. With more data the table converges to the truth (proved)

Modelled code: `mlpaper/mlpaper.py:loss_summary_table`, `mlpaper/mlpaper.py:get_mean_and_EB`, `mlpaper/mlpaper.py:get_test`, `mlpaper/mlpaper.py:t_EB`, `mlpaper/mlpaper.py:t_test`, `mlpaper/mlpaper.py:bernstein_EB`, `mlpaper/mlpaper.py:bernstein_test`.
Proof: Props/Consistency.lean: strong law for mean and sample variance; bounded t quantiles by C130; the widths of C45 and C47 tend to 0; p-values by C45 and by the duality C46 between test and interval.

* `C132_mean_and_EB` (`Props/Consistency.lean`): `get_mean_and_eb`: For data that are independent and have the same distribution with finite variance, almost surely the mean converges to the expected value and the error bar to 0, with method `'t'` and any limits, or `'bernstein'` and finite limits.
* `C132_test` (`Props/Consistency.lean`): `get_test`: If the expected value is not 0, almost surely the p-value converges to 0.
* `C132_table` (`Props/Consistency.lean`): The loss table: As rows are added, almost surely the mean in the table converges to the expected loss of the method, its error bar to 0, and, if the expected loss differs from that of the reference, its p-value to 0; so a truly different method is eventually reported as significant at any level.

Note: Vanishes says that a sequence of floats is eventually a number in [0, eps) for every eps. The bootstrap method is not included: its result depends on the draws.

### C133. Error bars computed in floating point are accurate (proved)

Modelled code: `mlpaper/mlpaper.py:t_EB`, `mlpaper/mlpaper.py:bernstein_EB`, `mlpaper/mlpaper.py:get_mean_and_EB`, `mlpaper/mlpaper.py:clip_EB`.
Proof: Props/ErrorBarRound.lean, Props/MeanEBAccuracy.lean: the rounded deviations are a perturbation of the vector of exact ones, compared in the Euclidean norm; factors are handled by relative nearness (Lemmas/NearRel.lean); clipping is a contraction.

* `C133_std` (`Props/ErrorBarRound.lean`): Standard deviations: The standard deviation that `np.std` (`d = 0`) and `ss.sem` (`d = 1`) compute differs from the exact one by at most a relative error of `6 n u` and an absolute error of `4 n u` times the average absolute value.
* `C133_t_EB` (`Props/ErrorBarRound.lean`): `t_eb`: The computed error bar of method `'t'` differs from the exact one by at most a relative error of `14 n u` and an absolute error of `5 n u` times the average absolute value times the quantile over root n.
* `C133_bernstein_EB` (`Props/ErrorBarRound.lean`): `bernstein_eb`: The computed Bernstein error bar differs from the exact one by at most a relative error of `25 n u` and an absolute error of `5 n u` times the average absolute value times the root of `2 log (3 / (1 - c)) / n`.
* `C133_mean_and_EB_bernstein` (`Props/MeanEBAccuracy.lean`): `get_mean_and_eb` with `'bernstein'`: The computed mean and error bar of `n` numbers between finite limits `l` and `h` are those of exact arithmetic up to `2 n u` and `130 n u log (3 / (1 - c))` times the larger of `|l|` and `|h|`.
* `C133_mean_and_EB_t` (`Props/MeanEBAccuracy.lean`): `get_mean_and_eb` with `'t'` and finite limits: With `q` the quantile of the t distribution, the computed mean and error bar are those of exact arithmetic up to `2 n u` and `(33 q + 4) n u` times the larger of `|l|` and `|h|`.
* `C133_mean_and_EB_t_open` (`Props/MeanEBAccuracy.lean`): `get_mean_and_eb` with `'t'` and an infinite limit: The errors are those of the mean and of `t_EB`.

Note: u is the unit roundoff, 2^-53 for double precision; no underflow or overflow (see C128, C129). doubleLib_quantile shows that correctly rounded quantiles meet the hypothesis.

### C134. The error bars of loss_summary_table are accurate in floating point (proved)

Modelled code: `mlpaper/mlpaper.py:loss_summary_table`, `mlpaper/mlpaper.py:get_mean_EB_test`, `mlpaper/mlpaper.py:t_EB`, `mlpaper/mlpaper.py:bernstein_EB`, `mlpaper/mlpaper.py:get_mean_and_EB`, `mlpaper/mlpaper.py:clip_EB`.
Proof: Props/TableEBAccuracy.lean, Props/TableAccuracy.lean: C133 for the rounded differences plus the effect of rounding the differences on the exact error bar; cells are identified on both sides.

* `C134_bernstein` (`Props/TableAccuracy.lean`): Bernstein: The table computed in floating point next to the table in exact arithmetic: the means differ by at most `2 n u` times the larger limit `B`, the error bars without `pairwise_CI` by at most `130 n u log(3/(1-c)) B`, and those with `pairwise_CI` by at most `138 n u log(3/(1-c))` times the difference of the limits.
* `C134_t` (`Props/TableAccuracy.lean`): T with finite limits: With `q` the quantile of the t distribution.
* `C134_t_open` (`Props/TableAccuracy.lean`): T without limits: (the default), for at least two rows. The errors are relative to the standard error and to the average absolute value of the losses, or of the differences to the reference.

Note: B = max(|l|,|h|) for limits l, h; method 'boot' is not included (its order statistics of rounded means are covered by C111 and C115).

### C135. The promise of the confidence intervals survives rounding (proved)

Modelled code: `mlpaper/mlpaper.py:loss_summary_table`, `mlpaper/mlpaper.py:t_EB`, `mlpaper/mlpaper.py:bernstein_EB`, `mlpaper/mlpaper.py:get_mean_and_EB`, `mlpaper/mlpaper.py:clip_EB`.
Proof: Props/RoundedCoverage.lean: C93 and C95 for the exact interval of the same data, then C133 and C134 cell by cell.

* `C135_error_bar` (`Props/RoundedCoverage.lean`): Error bars: In floating point, without `pairwise_CI`: with probability at least the confidence the true expected loss is within the error bar of the mean that the table shows, up to `132 n u log(3/(1-c))` times the larger limit.
* `C135_pairwise` (`Props/RoundedCoverage.lean`): Pairwise error bars: In floating point, with `pairwise_CI`: with probability at least the confidence the true difference in expected loss is within the error bar of the difference of the two means that the table shows, up to rounding.
* `C135_t` (`Props/RoundedCoverage.lean`): T for normal losses: A metric without limits whose losses are the floats nearest to independent normal numbers: in floating point with method `'t'`, without `pairwise_CI`, with probability at least the confidence the expectation of the normal numbers is within the error bar of the mean that the table shows, up to rounding.

Note: The exact table is not assumed to exist; only the one computed in floating point.

### C136. The printed table keeps the promise of the confidence intervals (proved)

Modelled code: `mlpaper/mlpaper.py:loss_summary_table`, `mlpaper/sciprint.py:just_format_it`, `mlpaper/sciprint.py:format_table`, `mlpaper/sciprint.py:print_estimate`, `mlpaper/sciprint.py:decimalize`.
Proof: Props/PrintedCoverage.lean: a reader of the padded text is specified (Shows, PrintedEst); C22 gives the text of a cell, the reader recovers its number, and the rounding of the two decimals is added to C135. Props/PrintedCoverageDouble.lean: coin tosses and rounded normal numbers in double precision.

* `C136_cell` (`Props/PrintedCoverage.lean`): One cell: What the reader of the text of a finite cell can conclude: a positive error bar that is shown is at least the computed one and the mean is off by at most half a unit of the last place; an error bar of zero or no error bar comes with a mean of five significant digits.
* `C136_cell_nan` (`Props/PrintedCoverage.lean`): One cell without an error bar: A cell with an undefined error bar, as that of the reference with `pairwise_CI`, is shown without error bar and with a mean of five significant digits.
* `C136_shown` (`Props/PrintedCoverage.lean`): The cell is shown: A cell with a finite mean within the limits of the metric is shown; a finite error bar within its own limit is shown, too.
* `C136_error_bar` (`Props/PrintedCoverage.lean`): Error bars: Losses summarised in floating point without `pairwise_CI` and printed by `just_format_it`: with probability at least the confidence, in every text that shows an error bar, whatever the options of `just_format_it`, the true expected loss is within the printed error bar plus half a unit of the last place of the printed mean, up to rounding errors in the computation.
* `C136_pairwise` (`Props/PrintedCoverage.lean`): Pairwise error bars: With `pairwise_CI`: with probability at least the confidence, in every text that shows the two methods, the true difference in expected loss is within the printed error bar of the difference of the printed means, plus half a unit of the last place of the mean and one part in 20000 of the mean of the reference, up to rounding errors in the computation.
* `C136_t` (`Props/PrintedCoverage.lean`): T for normal losses: As `C135_t`, for the printed text.

Note: Shows says that the text is the result of just_format_it on the very table that loss_summary_table returned; C137 shows that such texts exist. Nothing is promised about a cell whose error bar is left out because it exceeds its limit.

### C137. What loss_summary_table computes is a valid table of floats and can be printed (proved)

Modelled code: `mlpaper/mlpaper.py:loss_summary_table`, `mlpaper/sciprint.py:just_format_it`, `mlpaper/sciprint.py:format_table`, `mlpaper/sciprint.py:print_estimate`, `mlpaper/sciprint.py:decimalize`.
Proof: Props/TableFloats.lean: every entry is the result of a rounded operation, a clip or a library function, followed through get_mean_EB_test; existence of the printed table from dyadic floats, printing from C118.

* `C137_rounded` (`Props/TableFloats.lean`): Every mean, error bar and p-value of a table computed by `loss_summary_table` in floating point is NaN, infinite or a float, whatever the losses, limits, method and outcome of the bootstrap draws.
* `C137_same_table` (`Props/TableFloats.lean`): The tables fit together: Every table that `loss_summary_table` computes in floating point can be handed to `just_format_it` as it is.
* `C137_valid` (`Props/TableFloats.lean`): Valid entries: Whatever the losses, limits, method and outcome of the bootstrap draws, and however the arithmetic is rounded: in a table that `loss_summary_table` returns every error bar is NaN or not negative and every p-value is NaN or between 0 and 1.
* `C137_prints` (`Props/TableFloats.lean`): Whatever is computed can be printed: If `loss_summary_table` returns a table for finite losses, then that table can be handed to `just_format_it`, which returns a text, TeX or plain, for every shift modulus of at least 1 and all limits and units, unless an estimate is more than `10^26` times its positive error bar.

Note: The bound 10^26 is the precision of 28 decimal digits of the decimal module; beyond it the code can raise (C118).

### C138. Bernstein p-values are accurate in floating point and stay valid when printed (proved)

Modelled code: `mlpaper/mlpaper.py:bernstein_test`, `mlpaper/mlpaper.py:get_test`, `mlpaper/mlpaper.py:get_mean_EB_test`, `mlpaper/mlpaper.py:loss_summary_table`, `mlpaper/sciprint.py:just_format_it`, `mlpaper/sciprint.py:print_pval`, `mlpaper/sciprint.py:decimalize`.
Proof: Props/PValueAccuracy.lean: perturbation of the non-negative root of the quadratic equation (exponent_close), of its rounded coefficients with C111 and C133, of the exponential; the table by summaryCellR_test; false alarms from C93, the text from C06, C12 and C22. Props/PValueAccuracyDouble.lean: double precision with correctly rounded roots, and the table of coin tosses.

* `C138_bernstein_test` (`Props/PValueAccuracy.lean`): One test: `bernstein_test` in floating point: for data whose mean absolute value is at most the difference of the limits, as for limits on both sides of zero, the p-value differs from that of exact arithmetic at most by the factor `exp(n (11 n u + 2 κ))`.
* `C138_table` (`Props/PValueAccuracy.lean`): The table: The p-value that `loss_summary_table` computes in floating point differs from the one of exact arithmetic at most by the factor `exp(n (11 n u + 2 κ))`.
* `C138_false_alarm` (`Props/PValueAccuracy.lean`): False alarms: In floating point: if method and reference have the same expected loss, then the p-value of the table is at most `α` with probability at most `α exp(n (11 n u + 2 κ))`.
* `C138_cell` (`Props/PValueAccuracy.lean`): One printed p-value: `<v` is shown only for p-values below `v`, which is then `10⁻⁴`; a shown number is at least the p-value, by less than `10⁻⁴`.
* `C138_shown` (`Props/PValueAccuracy.lean`): The p-value is shown: Every finite p-value is shown.
* `C138_printed` (`Props/PValueAccuracy.lean`): Printed false alarms: If method and reference have the same expected loss, then with probability at most `α exp(n (11 n u + 2 κ))` the table computed in floating point has some text whose p-value reads `v` or `<v` with `v ≤ α`.
* `C138_double_roots` (`Props/PValueAccuracyDouble.lean`): Correctly rounded roots are accurate.

Note: The accuracy of np.roots is an assumption (AccurateRoots): eigenvalues of the companion matrix have errors relative to the larger root. Without underflow, as for C133.

### C139. p-values of the t test are accurate in floating point and stay valid when printed (proved)

Modelled code: `mlpaper/mlpaper.py:t_test`, `mlpaper/mlpaper.py:get_test`, `mlpaper/mlpaper.py:get_mean_EB_test`, `mlpaper/mlpaper.py:loss_summary_table`, `mlpaper/sciprint.py:just_format_it`, `mlpaper/sciprint.py:print_pval`.
Proof: Props/TTestAccuracy.lean: Student's distribution function grows at most with slope 3/5 and at most by half the relative increase of its argument (student_growth) and its tail is at most 6/(5T) (student_tail); perturbation of mean and standard error with C111 and C133; the table by summaryCellR_test; false alarms from C95, the text from C138_cell. Props/TTestAccuracyDouble.lean: double precision with a correctly rounded survival function, and a table of normal losses.

* `C139_t_test` (`Props/TTestAccuracy.lean`): The test: The p-value that `t_test` computes in floating point for finite data is a number between 0 and 1, and it differs from the exact p-value by at most `26 n u (1 + A / S) + 3 η`, where `S` is the standard error and `A` the average absolute value.
* `C139_table` (`Props/TTestAccuracy.lean`): Tables: The p-value of every cell but those of the reference, in a loss table made with method `'t'`.
* `C139_t_stat` (`Props/TTestAccuracy.lean`): The t statistic: The error of the p-value in terms of the t statistic of the data.
* `C139_false_alarm` (`Props/TTestAccuracy.lean`): False alarms: Independent normal data with mean zero, rounded to floating point numbers: the p-value that `t_test` computes is at most `α` with probability at most `α + 26 n u (1 + √n + 12 / (5 α)) + 3 η`.
* `C139_table_false_alarm` (`Props/TTestAccuracy.lean`): False alarms in tables: The table of losses whose differences from the losses of the reference are independent normal numbers with mean zero, made with method `'t'` in floating point.
* `C139_printed` (`Props/TTestAccuracy.lean`): Printed false alarms: The same for the p-values in the text that the library prints.
* `C139_double_sf` (`Props/TTestAccuracyDouble.lean`): A correctly rounded `ss.t.sf` is accurate.

Note: The accuracy of ss.t.sf is an assumption (AccurateSf). Without underflow, as for C133. In the statements on tables the losses themselves are exact and their differences rounded.

### C140. More bootstrap replicates settle on the ideal bootstrap, with a known noise level (proved)

Modelled code: `mlpaper/boot_util.py:boot_weights`, `mlpaper/boot_util.py:percentile`, `mlpaper/boot_util.py:significance`, `mlpaper/boot_util.py:error_bar`, `mlpaper/mlpaper.py:boot_test`, `mlpaper/mlpaper.py:boot_EB`, `mlpaper/mlpaper.py:loss_summary_table`.
Proof: Props/BootLimit.lean (cases in BootLimitEx.lean). Draws: an endless stream of independent draws, each of the N^N ways equally likely (`DrawStream`); the model gets the first n rows. Strong law of large numbers and Hoeffding's inequality for the share of replicates on either side of a point, then the closed form of `significance` and the order statistics of `percentile`.

* `C140_significance` (`Props/BootLimit.lean`): P-values: With more and more independent replicates the p-value of `significance` converges to that of their distribution.
* `C140_significance_noise` (`Props/BootLimit.lean`): Noise of p-values: With `n` replicates the p-value is off by more than `2 δ` with probability at most `3 exp (-2 n δ²)`.
* `C140_percentile` (`Props/BootLimit.lean`): Intervals: With more and more replicates the ends of the `percentile` interval settle on the quantiles of the distribution of the replicates: the lower end is eventually at least every `a` with less than `(1 - c) / 2` of the probability below it, and at most every `a` with more than that at or below it; likewise for the upper end.
* `C140_boot_test` (`Props/BootLimit.lean`): `boot_test`: With more and more replicates the p-value converges to that of the ideal bootstrap, which uses all `N ^ N` resamples.
* `C140_boot_test_noise` (`Props/BootLimit.lean`): Noise of `boot_test`: With `n` replicates the p-value is off by more than `2 δ` with probability at most `3 exp (-2 n δ²)`.
* `C140_rerun` (`Props/BootLimit.lean`): Running it again: Two runs with different random numbers differ by more than `4 δ` with probability at most `6 exp (-2 n δ²)`.
* `C140_boot_EB` (`Props/BootLimit.lean`): `boot_eb`: With more and more replicates the error bar settles on the smallest bar around the mean that leaves out at most `(1 - c) / 2` of the `N ^ N` resamples on either side.
* `C140_table` (`Props/BootLimit.lean`): The table: With `method_EB='boot'` and the default of 1000 replicates: the p-value in the table differs from that of the ideal bootstrap of the paired differences by more than `2 δ` with probability at most `3 exp (-2000 δ²)`.

Note: The rows handed to the model are the multinomial counts of the draws (`drawCounts`), as in C98. Quantiles are described by the shares on either side (no continuity is assumed), so at atoms of the distribution exactly at level (1-c)/2 the theorem gives no value, as it must.

### C141. What just_benchmark shows is statistically valid for new data, end to end (proved)

Modelled code: `mlpaper/classification.py:just_benchmark`, `mlpaper/regression.py:just_benchmark`, `mlpaper/classification.py:get_pred_log_prob`, `mlpaper/regression.py:get_gauss_pred`, `mlpaper/mlpaper.py:loss_summary_table`.
Proof: Spec/BenchRisk.lean (populations, risks, what a table shows), Props/BenchRisk.lean and RegrRisk.lean (the losses in the table are the scores of the points), Props/BenchCover.lean (coverage of the cells), Props/BenchPromise.lean and BenchPromiseRegr.lean (the theorems), cases in BenchPromiseEx.lean. The predictions of a trained method for the test set are a function of each test point (`TestSet`, `RegrTestSet`); the test points are independent draws (`Drawn`). The losses of the table are then the scores of independent points and the coverage results for tables apply.

* `C141_error_bar` (`Props/BenchPromise.lean`): Error bars: The test points are independent draws from a population, and each trained method predicts each of them on its own. With `method_EB='bernstein'` and limits that the losses respect, for any number of test points the benchmark keeps the promise of its 95% error bar: the mean and error bar it shows contain the risk, the expected loss of the trained method on a new point of the population, with probability at least 95%.
* `C141_pairwise` (`Props/BenchPromise.lean`): Pairwise error bars: With `pairwise_CI` the difference between the means of a method and the reference, and the error bar of the method, contain the difference between the risks with probability at least 95%.
* `C141_p_value` (`Props/BenchPromise.lean`): P-values: If a method has the same risk as the reference, its p-value is at most `α` with probability at most `α`, with and without `pairwise_CI`.
* `C141_error_bar_t` (`Props/BenchPromise.lean`): Error bars of the default method: With `method_EB='t'` and losses with finite variance that are not constant, the promise is kept up to any `δ` by large test sets: from some number of test points on the error bar contains the risk with probability at least 95% minus `δ`.
* `C141_pairwise_t` (`Props/BenchPromise.lean`): Pairwise error bars of the default method: 
* `C141_p_value_t` (`Props/BenchPromise.lean`): P-values of the default method: For large test sets a method with the same risk as the reference is flagged at level `α` with probability at most `α` plus `δ`.
* `C141_limit` (`Props/BenchPromise.lean`): Growing test sets: With `'t'`, or with `'bernstein'` and finite limits, almost surely the mean converges to the risk and the error bar to 0; and if the risk differs from that of the reference the p-value converges to 0, so the difference is found.
* `C141_success` (`Props/BenchPromise.lean`): Success: The benchmark with two labels, the standard losses and curves, `'bernstein'` and limits that contain all losses succeeds, so the promises above are about tables that are really shown.
* `C141_regr_error_bar` (`Props/BenchPromiseRegr.lean`): Regression, error bars: The test points are independent draws from a population, and each trained method predicts each of them on its own. With `method_EB='bernstein'` and limits that the losses respect, for any number of test points the benchmark keeps the promise of its 95% error bar: the mean and error bar it shows contain the risk, the expected loss of the trained method on a new point of the population, with probability at least 95%.
* `C141_regr_pairwise` (`Props/BenchPromiseRegr.lean`): Regression, pairwise error bars: With `pairwise_CI` the difference between the means of a method and the reference, and the error bar of the method, contain the difference between the risks with probability at least 95%.
* `C141_regr_p_value` (`Props/BenchPromiseRegr.lean`): Regression, p-values: If a method has the same risk as the reference, its p-value is at most `α` with probability at most `α`, with and without `pairwise_CI`.
* `C141_regr_error_bar_t` (`Props/BenchPromiseRegr.lean`): Regression, error bars of the default method: With `method_EB='t'` and losses with finite variance that are not constant, the promise is kept up to any `δ` by large test sets: from some number of test points on the error bar contains the risk with probability at least 95% minus `δ`.
* `C141_regr_pairwise_t` (`Props/BenchPromiseRegr.lean`): Regression, pairwise error bars of the default method: 
* `C141_regr_p_value_t` (`Props/BenchPromiseRegr.lean`): Regression, p-values of the default method: For large test sets a method with the same risk as the reference is flagged at level `α` with probability at most `α` plus `δ`.
* `C141_regr_limit` (`Props/BenchPromiseRegr.lean`): Regression, growing test sets: With `'t'`, or with `'bernstein'` and finite limits, almost surely the mean converges to the risk and the error bar to 0; and if the risk differs from that of the reference the p-value converges to 0, so the difference is found.
* `C141_regr_success` (`Props/BenchPromiseRegr.lean`): Regression, success: The benchmark with the standard losses, `'bernstein'` and limits that contain all losses succeeds.

Note: Exact arithmetic (floating point: C133 to C139). The events are stated so that a benchmark that fails shows nothing (no false promise); C141_success and C141_regr_success show that it does succeed with limits that contain all losses. The training data is fixed, as in the code: the risk is that of the trained method.

### C142. The AUC in the table is an unbiased and consistent estimate of the probability of ranking correctly (proved)

Modelled code: `mlpaper/perf_curves.py:roc_curve`, `mlpaper/util.py:area`, `mlpaper/classification.py:curve_boot`, `mlpaper/classification.py:just_benchmark`.
Proof: Spec/Ranking.lean (populations, the probability of ranking correctly), Props/Ranking.lean (expected value and variance of the share of ordered pairs), Props/RankingBench.lean (the AUC of a benchmark is that share, through C68, C81, C82 and C84; the theorems), cases in RankingEx.lean. Pairs of pairs without a common case are independent; the others have covariance at most 1/4. Props/RankingStd.lean (the column labelled AUC of STD_BINARY_CURVES).

* `C142_shown` (`Props/RankingBench.lean`): Shown: A table of `just_benchmark` has a cell for each curve and method.
* `C142_auc` (`Props/RankingBench.lean`): One curve: Draw the positive cases from one population and the negative cases from another, and score each case. The area under the ROC curve is a random number with mean the probability that a new positive case has a higher score than a new negative case (ties count one half), with variance at most `(1/n₁ + 1/n₀)/4`, and so it is off by `ε` with probability at most `(1/n₁ + 1/n₀)/(4 ε²)`.
* `C142_benchmark` (`Props/RankingBench.lean`): Benchmark: The same for the AUC that `just_benchmark` shows for any method, where the score of a case is the probability that the method predicts for label 1.
* `C142_meaning` (`Props/RankingBench.lean`): Useless and perfect scores: If the scores of both populations have the same distribution the probability, and so the expected AUC, is one half; if every positive case has a higher score than every negative case it is 1. It is always between 0 and 1.
* `C142_standard` (`Props/RankingStd.lean`): The column auc: With `STD_BINARY_CURVES` it is the column labelled AUC that has the expected value, variance and error probability.

Note: The labels of the test set are fixed and the cases of each label are drawn from the population of that label, which is the same as conditioning on the labels of a random test set. Exact arithmetic.

### C143. Conclusions from a whole table of results are right with a stated probability (proved)

Modelled code: `mlpaper/classification.py:just_benchmark`, `mlpaper/regression.py:just_benchmark`, `mlpaper/mlpaper.py:loss_summary_table`.
Proof: Spec/WholeTable.lean (the conclusions: Below, WithinBars, Ahead, Behind), Props/WholeTable.lean (from C141 by the union bound; the conclusions follow from the error bars deterministically), cases in WholeTableEx.lean.

* `C143_table` (`Props/WholeTable.lean`): All error bars: With `'bernstein'`, for any `k` cells of the table, of any methods and losses, the error bars of all of them contain the risks at the same time with probability at least one minus `k` times 5%.
* `C143_conclusions` (`Props/WholeTable.lean`): Comparing methods and picking one: With `'bernstein'`, for `k` methods: with probability at least one minus `k` times 5%, of two methods whose error bars are disjoint the lower one has the smaller risk, and a method picked because its mean is smallest has a risk that exceeds the smallest risk at most by the error bars of the two methods.
* `C143_pairwise` (`Props/WholeTable.lean`): Comparing with the reference: With `'bernstein'` and `pairwise_CI`, for `k` methods other than the reference: with probability at least one minus `k` times 5%, every method whose mean differs from that of the reference by more than its error bar differs from it in risk, in the same direction.
* `C143_p_values` (`Props/WholeTable.lean`): Many p-values: With `'bernstein'`: if `k` p-values, of methods that have the same risk as the reference, are compared with `α/k`, then any of them is at most `α/k` with probability at most `α`.
* `C143_conclusions_t` (`Props/WholeTable.lean`): Comparing methods and picking one, default method: With `'t'` the conclusions hold for large test sets with probability at least one minus `k` times 5%, minus any `δ`.
* `C143_pairwise_t` (`Props/WholeTable.lean`): Comparing with the reference, default method: 
* `C143_p_values_t` (`Props/WholeTable.lean`): Many p-values, default method: 
* `C143_regr_table` (`Props/WholeTable.lean`): Regression, all error bars: 
* `C143_regr_conclusions` (`Props/WholeTable.lean`): Regression, comparing methods and picking one: 
* `C143_regr_pairwise` (`Props/WholeTable.lean`): Regression, comparing with the reference: 
* `C143_regr_p_values` (`Props/WholeTable.lean`): Regression, many p-values: 
* `C143_regr_conclusions_t` (`Props/WholeTable.lean`): Regression, comparing methods and picking one, default method: 
* `C143_regr_pairwise_t` (`Props/WholeTable.lean`): Regression, comparing with the reference, default method: 
* `C143_regr_p_values_t` (`Props/WholeTable.lean`): Regression, many p-values, default method: 

Note: As C141. The package does not correct for multiple comparisons; the theorems say what the reader has to pay for them.

### C144. Formatting a table of floats never reaches the exponent limits of decimal arithmetic (proved)

Modelled code: `mlpaper/sciprint.py:create_decimal`, `mlpaper/sciprint.py:decimalize`, `mlpaper/sciprint.py:print_estimate`, `mlpaper/sciprint.py:find_shift`, `mlpaper/sciprint.py:format_table`, `mlpaper/sciprint.py:just_format_it`.
Proof: Model/DecimalLimits.lean (`_fix`, `quantize`, `scaleb` with Emax and Emin, and the functions of sciprint.py on top), Spec/DecimalLimits.lean (floats, places of digits), Props/DecimalLimits.lean (equality with the model without limits, function by function, by bounding the places of the digits).

* `C144_overflow` (`Props/DecimalFix.lean`): Above the limits: Rounding to the context raises Overflow exactly for the numbers which, rounded to `prec` digits, are `10^1000000` or more in magnitude.
* `C144_underflow` (`Props/DecimalFix.lean`): Below the limits: A number below `10^-999999` in magnitude is rounded to a multiple of `10^(-999998 - prec)`, unless it is one.
* `C144_normal` (`Props/DecimalFix.lean`): Between the limits: Every other number is rounded as with unbounded exponents.
* `C144_zero` (`Props/DecimalFix.lean`): Zero: The exponent of a zero is moved between `-999998 - prec` and `999999`.
* `C144_quantize` (`Props/DecimalFix.lean`): Quantize: `quantize` with the limits of the default context: the target exponent must lie between -1000026 and 999999, and neither the number nor the result may be `10^1000000` or more; otherwise the result is that with unbounded exponents.
* `C144_quantize_special` (`Props/DecimalFix.lean`): Quantize with nan or infinity: is not affected by limits.
* `C144_scaleb` (`Props/DecimalFix.lean`): Scaleb: `scaleb` in the default context: shifts beyond ±2000054 are invalid. A number of at most 28 digits that stays between the limits only gets another exponent, one that is moved above them raises Overflow.
* `C144_create_decimal` (`Props/DecimalLimits.lean`): `create_decimal` of a float: the limits are never reached, for any number of digits.
* `C144_decimalize_cell` (`Props/DecimalLimits.lean`): One cell of `decimalize`: for floats the limits are never reached, whatever the limit on error bars and the numbers of digits (below 900000 for the p-value).
* `C144_decimalize` (`Props/DecimalLimits.lean`): `decimalize` of a table of floats never reaches the limits.
* `C144_print_estimate` (`Props/DecimalLimits.lean`): `print_estimate` with a shift and clips of moderate size never reaches the limits.
* `C144_find_shift` (`Props/DecimalLimits.lean`): `find_shift` with a step of moderate size never reaches the limits.
* `C144_format_column` (`Props/DecimalLimits.lean`): One column of `format_table` never reaches the limits.
* `C144_just_format_it` (`Props/DecimalLimits.lean`): `just_format_it` of a table of floats never reaches the limits of decimal arithmetic on exponents: with them it returns, or raises, what the model with unbounded exponents says; for all limits on error bars, clips up to `10^±300000` and shift steps up to 300000.

Note: Default context of the decimal module. The user's own clips or shift steps beyond 300000 are excluded; the last example shows that the limits then matter.

### C145. Exchanging method and reference gives the same error bar and p-value (proved)

Modelled code: `mlpaper/mlpaper.py:loss_summary_table`, `mlpaper/mlpaper.py:get_mean_EB_test`, `mlpaper/mlpaper.py:get_test`, `mlpaper/boot_util.py:error_bar`, `mlpaper/boot_util.py:significance`.
Proof: Spec/Exchange.lean (odd rounding and sums, mirrored positions), Props/Exchange.lean (every function on the negated differences, then cells and whole tables; exact arithmetic via C110; the positions at confidence 0.95 in double precision).

* `C145_pairwise` (`Props/Exchange.lean`): A comparison with its own error bar: For losses that pass the checks, the error bar and the p-value of a method compared with the reference are those of the reference compared with the method.
* `C145_table` (`Props/Exchange.lean`): Tables with `pairwise_ci`: The error bar and the p-value of `b` in the table with the reference `a` are those of `a` in the table with the reference `b`, if the bootstrap draws the same weights.
* `C145_p_value` (`Props/Exchange.lean`): Tables without `pairwise_ci`: The p-values agree for every method of computing them.
* `C145_exact` (`Props/Exchange.lean`): without rounding.** In exact arithmetic error bars and p-values agree for all methods of computing them, the bootstrap included.
* `C145_default` (`Props/Exchange.lean`): The default confidence: In double precision, at the confidence 0.95 and with 1000 replicates, the positions are mirror images: the 25th smallest and the 25th largest replicate.
* `C145_positions_can_differ` (`Props/Exchange.lean`): A limit of the bootstrap: At the confidence `1 - 2/999`, rounded to a double, the positions are not mirror images: the interval runs from the smallest replicate to the second largest one. The error bar of the bootstrap may then change when method and reference are exchanged.

Note: For the model with rounding (C108) and the exact one. Overflow is outside of this model; C129 shows when there is none.

### C146. The units of the losses do not matter (proved)

Modelled code: `mlpaper/mlpaper.py:loss_summary_table`, `mlpaper/mlpaper.py:get_mean_EB_test`, `mlpaper/mlpaper.py:get_mean_and_EB`, `mlpaper/mlpaper.py:bernstein_EB`, `mlpaper/mlpaper.py:t_test`, `mlpaper/boot_util.py:error_bar`, `mlpaper/boot_util.py:significance`.
Proof: Spec/Units.lean (a value, table, limits and cell in other units), Props/Units.lean (every function of mlpaper.py and boot_util.py on changed losses, then cells and whole tables, as an equation between calls including errors).

* `C146_mean_EB` (`Props/Units.lean`): One mean: `get_mean_and_EB` in other units: the mean is multiplied and shifted, the error bar multiplied.
* `C146_test` (`Props/Units.lean`): Tests: The p-value does not change with the unit.
* `C146_mean_EB_test` (`Props/Units.lean`): A mean with its test: 
* `C146_table` (`Props/Units.lean`): `loss_summary_table` in other units, a positive factor and a shift for each metric, losses and limits alike: it fails in the same way or not at all, the means are multiplied and shifted, the error bars multiplied, and the p-values are the same. With the bootstrap and without `pairwise_CI` the weights of each replicate are assumed to add up to the number of data points, as multinomial ones do.

Note: For the model with exact arithmetic.

### C147. How certain the AUC in the table is (proved)

Modelled code: `mlpaper/perf_curves.py:roc_curve`, `mlpaper/util.py:area`, `mlpaper/classification.py:curve_summary_table`, `mlpaper/classification.py:just_benchmark`.
Proof: Lemmas/TwoSample.lean (Hoeffding's inequality for averages over all pairs of two samples, by cyclic shifts and sub-Gaussian moment generating functions), Props/RankingTail.lean. Props/RankingTailStd.lean (the column labelled AUC of STD_BINARY_CURVES).

* `C147_auc` (`Props/RankingTail.lean`): One curve: The area under the ROC curve of `n₁` positive and `n₀` negative cases differs from the probability that a new positive case has a higher score than a new negative case by `ε` or more, in a given direction, with probability at most `exp(-2 min(n₁, n₀) ε²)`.
* `C147_benchmark` (`Props/RankingTail.lean`): Benchmark: The AUCs that `just_benchmark` shows. (i) Each is off by `ε` or more with probability at most `2 exp(-2 min(n₁, n₀) ε²)`. (ii) Except with probability `δ` all of them are off by less than `√(log(2k/δ) / (2 min(n₁, n₀)))`, for `k` methods. (iii) The difference between two methods is off by `ε` or more with probability at most `2 exp(-min(n₁, n₀) ε²/2)`. (iv) The better of two methods does not get the higher AUC with probability at most `exp(-min(n₁, n₀) Δ²/2)`, if `Δ` is the true difference.
* `C147_standard` (`Props/RankingTailStd.lean`): The column auc: With `STD_BINARY_CURVES` all this holds for the column labelled AUC.

Note: As in C142 the labels of the test set are fixed. Exact arithmetic; C116 bounds the rounding of the AUC.

### C148. A few test points cannot change a table by much (proved)

Modelled code: `mlpaper/mlpaper.py:loss_summary_table`, `mlpaper/perf_curves.py:roc_curve`, `mlpaper/util.py:area`, `mlpaper/classification.py:curve_summary_table`, `mlpaper/classification.py:just_benchmark`.
Proof: Spec/Sensitivity.lean (number of changed points), Props/Sensitivity.lean (sums by induction, pairs of cases by counting). Props/RankingTailStd.lean (the column labelled AUC of STD_BINARY_CURVES).

* `C148_standard` (`Props/RankingTailStd.lean`): The column auc: With `STD_BINARY_CURVES` this holds for the column labelled AUC.
* `C148_mean` (`Props/Sensitivity.lean`): Means: Of two tables of losses, with limits `lo` and `hi`, let `loss` and `loss'` be the losses of a method that differ in some places. Then the means in the two summaries differ by at most that many times `(hi - lo)/n`.
* `C148_order` (`Props/Sensitivity.lean`): Order: If the means of two methods differ by more than `2 k (hi - lo)/n`, changing `k` of the test points cannot make the worse one look at least as good.
* `C148_auc` (`Props/Sensitivity.lean`): One curve: Giving other scores to `k₁` of `n₁` positive and `k₀` of `n₀` negative cases moves the area under the ROC curve by at most `k₁/n₁ + k₀/n₀`.
* `C148_benchmark` (`Props/Sensitivity.lean`): Benchmark: The same for the AUC of a method in two runs of `just_benchmark` whose test sets have the same labels and in which the method predicts another probability of label 1 for `k₁` of `n₁` positive and `k₀` of `n₀` negative cases.

Note: Exact arithmetic; C111 and C116 bound the rounding.

### C149. Losses of regressors survive overflow and underflow of doubles (proved)

Modelled code: `mlpaper/regression.py:square_loss`, `mlpaper/regression.py:abs_loss`, `mlpaper/regression.py:log_loss`.
Proof: Model/RegrIeee.lean (the three losses with ieee64 after each operation), Spec/RegrIeee.lean (nearest double with overflow), Props/RegrIeee.lean (monotonicity of rounding, case analysis at the exponent limits), Props/RegrIeeeExamples.lean (the contract holds for a correctly rounded library).

* `C149_reject` (`Props/RegrIeee.lean`): Acceptance: The losses raise on the same input as with exact numbers.
* `C149_abs` (`Props/RegrIeee.lean`): Absolute loss: It is the double for the absolute difference, plus infinity if there is none, and 0 exactly for a perfect mean.
* `C149_square` (`Props/RegrIeee.lean`): Square loss: It is the double for the square of the computed absolute difference. It is never NaN and never negative; it is plus infinity if the difference is `2 ^ 512` (about `1.3e154`) or more, and not if it is smaller by one unit in the last place; and it is 0 for differences up to `2 ^ -538`, although the mean is wrong, and not for differences of `2 ^ -537` (about `2.2e-162`) or more.
* `C149_log` (`Props/RegrIeee.lean`): Log loss: Its value comes from the rounded operations of the formula `-z^2/2 - log(sqrt(2 pi)) - log s`, where `z` is the standardised difference. With logarithms that are not larger than 1024, it is a number or plus infinity, never NaN and never minus infinity. It is plus infinity if the difference is `2 ^ 512` standard deviations or more, or if the difference itself is too large for a double, even if the standard deviation is as large; and otherwise it is a number if the difference is at most `2 ^ 511` standard deviations.
* `C149_closer` (`Props/RegrIeee.lean`): Better means: If every mean is at least as close to its target as another prediction with the same standard deviations, none of the losses of any sample is larger, in spite of rounding, overflow and underflow.
* `C149_agree` (`Props/RegrIeeeAgree.lean`): Agreement: If targets, means and standard deviations are doubles of moderate size, and so are the differences that are not 0, the exponent limits do not matter: the standard losses are those of floating point numbers with 53 bits and any exponent, and the results of C122 on their accuracy hold for them.
* `C149_library_doubles` (`Props/RegrIeeeAgree.lean`): Doubles of the library: The logarithms of a library with correct rounding are doubles.
* `C149_accuracy` (`Props/RegrIeeeAgree.lean`): Accuracy: For doubles of moderate size, the three losses in double precision, with a library that rounds correctly, are accurate to a relative error of `4e-16`, of `2e-16`, and of `2e-15` of the sum of the absolute terms of the log loss.
* `C149_library` (`Props/RegrIeeeExamples.lean`): Library: With correctly rounded logarithms and roots, all double standard deviations and the constant of the log density have the bounds that the theorems on the log loss need.

Note: Signed zeros are not modelled; the largest-exponent behaviour of logarithms is a hypothesis, which C149_library discharges for correct rounding.

### C150. Log-probabilities and Brier losses survive overflow and underflow of doubles (proved)

Modelled code: `mlpaper/util.py:normalize`, `mlpaper/classification.py:brier_loss`.
Proof: Model/ClassIeee.lean (normalize and brier_loss with ieee64 after each operation), Spec/ClassIeee.lean (what is asked of exp, log and sums), Props/ClassIeee.lean (logsumexp is a double between the largest entry and 2048 above it), Props/ClassIeeeBrier.lean (no operation of brier_loss overflows; a correctly rounded library meets the hypotheses). Props/ClassIeeeAgree.lean (normalize of entries of moderate size, and which inputs raise).

* `C150_normalize` (`Props/ClassIeee.lean`): `normalize`: If every row has only doubles and `-inf` in it, not only `-inf`, then `normalize` returns rows of the same kind in which no entry is positive or NaN, in the same order. Impossible labels stay impossible; a possible one becomes impossible only by overflow: if another entry of the row is larger by about `2 ^ 1024`, and not if none is larger by more than `2 ^ 1023`.
* `C150_normalize_agree` (`Props/ClassIeeeAgree.lean`): `normalize` without overflow: If no entry exceeds `2 ^ 1000` in absolute value, `normalize` returns what it would return if there were no largest exponent.
* `C150_normalize_reject` (`Props/ClassIeeeAgree.lean`): `normalize` without labels: It raises if there are no columns.
* `C150_brier_reject` (`Props/ClassIeeeAgree.lean`): Brier loss of invalid input: It raises on the same input as with exact numbers.
* `C150_brier_agree` (`Props/ClassIeeeBrier.lean`): Brier loss without overflow: For log-probabilities up to 0 nothing overflows in `brier_loss`: it returns what it would return if there were no largest exponent.
* `C150_brier` (`Props/ClassIeeeBrier.lean`): Brier loss: For log-probabilities up to 0 and at most `2 ^ 53` labels every loss is a number, not negative, and at most the number of labels, or twice that if rescaled, although probabilities underflow.
* `C150_library` (`Props/ClassIeeeBrier.lean`): A library: The hypotheses hold for correctly rounded functions and sums from left to right.

Note: Sums inside logsumexp and brier_loss are those of the library, rounded with gradual underflow; they add up numbers of at most 1 and stay below 2^53. The log loss and the spherical loss are not covered at the exponent limits.

## 6. Trying the theorems against wrong programs

A theorem that still proves when the model is edited into a program for which its English claim is false says too little. So the model
was edited, one realistic bug at a time, in a scratch copy: every definition of every model file got several edits (off by one, wrong
comparison, wrong rounding mode, missing check, swapped arguments, wrong axis, dropped branch, forgotten normalisation, stale state, ...).
The modules that depend on the edited definition were compiled again, also past errors, and every theorem was classified: its own proof
or one of its lemmas fails, or it still holds. `seeded/LOG.jsonl` has one line for each attempt: the definition, the edit, the claim it breaks, the
theorems that failed and those that were tightened because of it. Edits that turned out to leave the observable
behaviour unchanged are logged as such.
