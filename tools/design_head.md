# Formal model of mlpaper in Lean 4: design

Source: `rdturnermtl/mlpaper`, read as text from `/repo` (never built or run). The Lean project is in `lean/`.
This file is assembled by `tools/gen_design.py` from `tools/design_head.md` (written by hand) and the doc comments of the theorems.

## 1. Layout

| folder | content |
|---|---|
| `Verif/Model/*.lean` | the model: one Lean function per Python function, statement by statement; every definition cites file and lines |
| `Verif/Spec/*.lean` | small independent specifications (a reader of printed numbers, threshold counts, order statistics, integrals, expectations, ...) that do not call the model |
| `Verif/Lemmas/*.lean` | helper lemmas |
| `Verif/Props/*.lean` | the property theorems, named `Cnn_...`; next to them `example`s with concrete non-trivial data that meet the hypotheses |
| `properties.jsonl` | the properties in English |
| `MANIFEST.json` | status and theorem names per property, written by `tools/gen_manifest.py` |
| `seeded/LOG.jsonl` | the wrong programs the theorems were tried against (section 6) |
| `AXIOMS.txt` | the axioms each manifest theorem depends on |

### What is modelled

| model file | Python code |
|---|---|
| `Py` | exceptions and `assert` |
| `Decimal` | the parts of Python's `decimal` the package uses: context rounding, `quantize`, `scaleb`, comparison, `adjusted`, `as_tuple`, `{0:,f}`; exact conversion of binary floats |
| `Constants` | `constants.py`: prefix tables, column labels |
| `Sciprint`, `FormatStr` | all of `sciprint.py` (`FormatStr`: with custom format strings), except the last step of `table_to_latex`/`table_to_string` (pandas `to_latex`, `to_string`) |
| `Export` | that last step: the text made by pandas 0.24 `to_latex` and `to_string` |
| `DataSplitter` | all of `data_splitter.py` (`build_lag_df` up to the exception it always raises) |
| `Flt` | IEEE special values over an ordered field, numpy reductions |
| `BootUtil` | all of `boot_util.py` |
| `Mlpaper` | all of `mlpaper.py` (`clip_EB`, t, Bernstein and bootstrap tests and error bars, `get_*`, `loss_summary_table`) |
| `ClipChk`, `Util`, `UtilHeap` | all of `util.py` (`_remove_chars_py2` excepted; `remove_chars` is in `Sciprint`) |
| `PerfCurves` | all of `perf_curves.py` |
| `Round`, `PerfRound`, `BootRound`, `MlpaperRound`, `CurveRound`, `LossRound` | binary64 rounding; the curve functions of `perf_curves.py`, all of `boot_util.py` and of `mlpaper.py`, `area` and `interp1d` of `util.py`, `curve_boot`, `curve_summary_table`, the losses, loss tables, predictions, references and `just_benchmark` of `classification.py` and `regression.py` again with every operation rounded |
| `ClassLoss`, `ClassTable`, `CurveBoot` | all of `classification.py` |
| `Frame` | the pandas operations used for tables with a column MultiIndex |
| `Regression` | all of `regression.py` |
| `Checkpoint` | `get_pred_log_prob` and `get_gauss_pred` with `checkpointdir`: joblib's cache as a store, runs that die at any point, damaged results |

### What is not modelled

* printing with `verbose`, warnings, messages of exceptions;
* overflow and underflow of binary floating point arithmetic, except for the curves and their bootstrap (C127 proves that
  they do not happen there) in `loss_summary_table` (underflow C128, overflow C129) in the losses of regressors (C149) and in `normalize` and `brier_loss` (C150); rounding, except where noted in section 2;
* signed zero of floats (the sign of a decimal zero is modelled);
* Python 2 branches, running Python with `-O`;
* the estimators of scikit-learn: an estimator is any function from its state and the data to a prediction or an exception;
* how random numbers are generated (C93–C96, C130–C132 and C140–C143 are about random data; C97 and C98 take the permutations and the bootstrap draws as uniform);
* pandas label alignment, repeated labels in a MultiIndex, dtype promotion beyond what the code's own assertions look at;
* in-place effects and aliasing, except for `cummax_strict` (`UtilHeap`); the other functions are modelled by what they return.

## 2. Modelling conventions

* **Exceptions** are values: `Py α := Except PyErr α`. `assert` raises `PyErr.assertion`. The order of checks is that of the code, so
  "which exception" is part of most theorems.
* **Floats.** `Flt K` = finite element of a linearly ordered field `K`, `+inf`, `-inf`, `nan`, with the IEEE rules for the special
  values (NaN compares false, inf-inf = NaN, x/0 = ±inf, 0/0 = NaN) and *exact* arithmetic on finite values. Exceptions to exactness:
  (a) `decimalize` takes floats as exact dyadic rationals, where Python's `Decimal` conversion is exact too, so the `sciprint` theorems
  (C01–C22) are about real floats; (b) where a rounding function can be a parameter (`rand_subset`, `rand_mask`,
  `ordered_split_series`, `linear_split_series`, `cummax_strict` with an abstract successor function) it is one; (c) C104–C111, C113–C116, part of C118 and C119 onwards are about
  a second model of the curves, of `boot_util.py`, of `mlpaper.py`, of `curve_boot` and of the losses and benchmarks in which every addition, subtraction, multiplication and division is rounded: rounding is any monotone, odd, idempotent
  function that keeps 0 and 1 and the sign (`Round.FloatRounding`), with relative error at most `u` where accuracy matters, and `np.sum` may add
  along any tree. `Round.binary64` (round to nearest, ties to even, 53 bits, exponents unbounded) is constructed and proved to be one. In C108–C111 and C133–C139 the other library functions (sqrt, log, exp,
  `np.roots`, `ss.t`) are parameters (`PaperR.Lib`) of which only signs and ranges are used (`Spec.GoodLib`), and for accuracy a relative error (`Spec.AccurateLib`, `AccurateQuantile`, `AccurateRoots`, `AccurateSf`); `doubleLib`, correctly rounded, meets them; for the losses also the values and sides of exp and log at 0 and 1 (`Spec.GoodExpLog`) and, for `np.dot`, an error bound (`Spec.DotError`), all proved for double precision. C110, C113 and C119 say that
  this second model is the first one if nothing is rounded. After an "all finite"
  assertion functions continue in `K`. `K = ℚ` is used for executable examples; `ℝ` where exp, log, sqrt occur.
* **Decimal** follows the General Decimal Arithmetic specification as implemented by Python's `decimal`: sign, coefficient,
  exponent, context precision 28, ROUND_HALF_EVEN by default. NaN payloads are dropped. Exponents are unbounded;
  `Model/DecimalLimits.lean` models `_fix`, `quantize` and `scaleb` with `Emax`/`Emin`, and C144 proves that for tables of floats both give the same.
* **Strings** are `List Char`.
* **Arguments are values.** The model is purely functional. In /repo the only assignments into arrays that may belong to the caller are those of
  `cummax_strict(copy=False)`, which says so; every other assignment is into an array or table made by the same function (or copied first, as by the `astype(float)` of
  `_add_pseudo_points`), so sharing of memory is not modelled.
* **Randomness** is a parameter: a permutation for `np.random.choice(replace=False)` (numpy: `x[permutation(n)[:N]]`), a matrix of
  non-negative integers with row sum N for the multinomial, numbers in [0,1) for `rand`. Theorems quantify over all outcomes; C97 and C98 count
  the equally likely ones.
* **Probabilities.** The set of outcomes in which a program shows something need not be measurable (it may also depend on draws about which
  nothing is assumed), and `P.real` of such a set is its outer measure. Bounds from above (`P.real {bad} ≤ α`) are strong in this reading. Bounds from
  below are therefore stated by `Spec.Likely` (the set contains a measurable set of that probability), exact values by `Spec.IsProb` (the set is
  measurable and has that probability) and limits by `Spec.ProbTendsto`.
* **Library functions** are modelled by their contract: an unstable `argsort` is any sorting permutation (the theorems hold for all of
  them), `np.percentile(lower/higher)` is the order statistic at floor/ceil of `(n-1)q/100`, `np.interp`, `interp1d`, `searchsorted`,
  `np.trapz`, `logsumexp` by definition. The t distribution is a parameter of the model with symmetric, strictly increasing and
  continuous distribution function; `C45_student` instantiates it with Student's t distribution (density, integral and inverse constructed
  in `Lemmas/StudentT.lean`), so that hypothesis is met.
* **Tables** (pandas) are lists of labels plus columns.
* **Text export.** `Model/Export.lean` follows `to_latex` and `to_string` of pandas 0.24 as known to the author; the pandas source is not in
  the sandbox, so this part could only be compared with the sample output in `README.rst`, with which it agrees up to blanks next
  to the empty corner of the table.
* Library versions read as pinned by `/repo/requirements`: numpy 1.15.0, pandas 0.24.0, scipy 1.1.0, joblib 0.11.

## 3. Trusted base

* Lean 4.33.0's kernel and Mathlib as installed. No `axiom`, `sorry`, `native_decide`, `bv_decide`. Every theorem depends on at most
  `propext`, `Classical.choice`, `Quot.sound`; the list per theorem is in `AXIOMS.txt`.
* The reading of `/repo` into the model, and the contracts of numpy, pandas, scipy, joblib and `decimal` above.
* The specifications in `Verif/Spec` saying what the English says.

## 4. Findings about the code

These follow from theorems; each is what the code does today, stated as such.

* `build_lag_df` never returns: tuple + list is a TypeError (C35).
* An ordered split raises AssertionError whenever `frac` times the number of distinct values is an integer strictly between (C32).
* TeX headers with an explicit scale returned by `adjust_headers` contain a TAB and `imes` instead of `\times` (C19).  The export
  of pandas happens to write the TAB as `\t`, so the final text is right (C99).
* The export cuts cells of more than 49 characters, so digits can be lost without notice (C101).
* A mean of more than 28 digits is printed with an error that reads at least ten times too large (C103).
* `hard_loss_decision` with infinite losses prefers an action whose infinite loss meets a label of probability 0, because `0 * inf`
  is NaN and `argmin` stops there (C102).
* `format_table` builds a ValueError without raising it for an infinite mean in an unclipped column; the assertion after it catches this (C21).
* `loss_summary_table`: equal infinite losses of a method and the reference give NaN and an AssertionError, no table (C52).
* A p-value of `significance` can be exactly 0 or 1; a p-value below `1 - confidence` does not imply that the interval excludes the
  reference (C43); the other direction holds (C42).
* Rounding can make the percentile interval lopsided: of 11 replicates at confidence 0.8 it runs from the smallest to the second largest entry,
  where exact arithmetic takes smallest and largest (C107).
* t test and t error bar disagree exactly on all-zero data (C45).
* `JustNoise` for classification fails on Boolean labels, although the checks accept them (C80).
* The floor `min_log_prob` is not a floor of the resulting table: normalisation follows it (C81).
* `JustNoise` for regression predicts standard deviation 0 for constant targets, which all losses reject; `min_std > 0` helps (C87, C88).
* Classification `just_benchmark` needs two labels and, with the default floor `-inf`, fails for every method that gives label 1
  probability 0 at some test point, even if it is right (C92); a finite floor helps.
* The area under the precision-recall-gain curve can be `-inf` (C73); with `pairwise_CI` that can make the curve table fail (C83).
* A single-class sample gives AUC 1/2 rather than an exception (C70).
* `_interp1d` with kind `'previous'` extrapolates to the right without complaint (C60); `check_curve` looks at the ends of the grid only.
* With weights of very different size `roc_curve` and `prg_curve` raise AssertionError in double precision (1e16 and 1), where exact arithmetic never
  does; `recall_precision_curve` also fails if a light negative sample has the top score before a heavy positive one (C105). The
  bootstrap weights of `curve_boot` are safe up to 3000 samples (300 for recall-precision).
* Without `pairwise_CI` `loss_summary_table` compares the mean with the clipped mean by `==`: three losses of 0.1 with limits (0, 0.1) raise
  AssertionError in double precision; limits 0, 1 and other integers are safe (C109). With `pairwise_CI` the same data give a table whose mean exceeds the limit (C108).
* `unique_take_last` rejects a repeated infinity (C57).
* A checkpoint is keyed by the state of the estimator object before training, so calling again with the same, now fitted, objects
  trains again (C90).

