{
 "C01": "a separate reader of strings (strip commas, parse, digits in parentheses) is applied to the printed string; induction on base-10 digits, grouping and the position of the point.",
 "C02": "a grammar of printed numbers in `Spec/Reader.lean`; grouping by induction from the right.",
 "C03": "case analysis over the branches, against an order on extended decimals defined in the specification.",
 "C04": "the value of a decimal in ℚ; rounding lemmas on natural number division; least and nearest element characterisations.",
 "C05": "rational values of the decimals before and after rounding (C04), composed along `decimalize`.",
 "C06": "rational values of the decimals before and after rounding (C04), composed along `decimalize`.",
 "C07": "rational values of the decimals before and after rounding (C04), composed along `decimalize`.",
 "C08": "rational values of the decimals before and after rounding (C04), composed along `decimalize`.",
 "C09": "rational values of the decimals before and after rounding (C04), composed along `decimalize`.",
 "C10": "exact failure conditions of `quantize`, by case analysis on the number of digits.",
 "C11": "the reader of C01 on the output of `print_pval`; for strictness, a dyadic rational equal to a power of ten is an integer multiple.",
 "C12": "the reader of C01 on the output of `print_pval`; for strictness, a dyadic rational equal to a power of ten is an integer multiple.",
 "C13": "integer arithmetic, minimum and maximum over lists, least element over a finite range, for every permutation that sorts by absolute value.",
 "C14": "integer arithmetic, minimum and maximum over lists, least element over a finite range, for every permutation that sorts by absolute value.",
 "C15": "integer arithmetic, minimum and maximum over lists, least element over a finite range, for every permutation that sorts by absolute value.",
 "C16": "length of the suffix after the units digit as invariant of the padding.",
 "C17": "floor division on integers.",
 "C18": "prefix factors specified separately as powers of ten; table entries by case analysis, fallback cases symbolically for all shifts and names.",
 "C19": "prefix factors specified separately as powers of ten; table entries by case analysis, fallback cases symbolically for all shifts and names.",
 "C20": "composition of the previous results along the loops over metrics and methods.",
 "C21": "composition of the previous results along the loops over metrics and methods.",
 "C22": "composition of the previous results along the loops over metrics and methods.",
 "C23": "induction on lists; case analysis on decimals.",
 "C24": "induction on lists; case analysis on decimals.",
 "C25": "rows as lists, masks as Boolean lists; induction over the splits.",
 "C26": "rows as lists, masks as Boolean lists; induction over the splits.",
 "C27": "rows as lists, masks as Boolean lists; induction over the splits.",
 "C28": "the permutation drawn is a parameter; counting; the product is rounded by an arbitrary monotone rounding that keeps integers.",
 "C29": "the permutation drawn is a parameter; counting; the product is rounded by an arbitrary monotone rounding that keeps integers.",
 "C30": "the permutation drawn is a parameter; counting; the product is rounded by an arbitrary monotone rounding that keeps integers.",
 "C31": "sorted list of distinct values and order statistics; a rounding function as parameter, exact arithmetic as corollary.",
 "C32": "sorted list of distinct values and order statistics; a rounding function as parameter, exact arithmetic as corollary.",
 "C33": "sorted list of distinct values and order statistics; a rounding function as parameter, exact arithmetic as corollary.",
 "C34": "sorted list of distinct values and order statistics; a rounding function as parameter, exact arithmetic as corollary.",
 "C35": "the model reaches the TypeError on every path that does not raise KeyError; the frame built before it (lagFrame) is compared with the documented layout row by row.",
 "C36": "weights turned into a resample by replication.",
 "C37": "counting lemmas for order statistics; percentile positions as floor and ceiling.",
 "C38": "counting lemmas for order statistics; percentile positions as floor and ceiling.",
 "C39": "counting lemmas for order statistics; percentile positions as floor and ceiling.",
 "C40": "counting lemmas for order statistics; percentile positions as floor and ceiling.",
 "C41": "counting lemmas for order statistics; percentile positions as floor and ceiling.",
 "C42": "counting lemmas for order statistics; percentile positions as floor and ceiling.",
 "C43": "counting lemmas for order statistics; percentile positions as floor and ceiling.",
 "C44": "case analysis on the special values.",
 "C45": "real analysis with an abstract distribution function and its inverse; Student's t distribution constructed with Mathlib's integrals.",
 "C46": "solution of the quadratic equation in the square root of the exponent; monotonicity.",
 "C47": "solution of the quadratic equation in the square root of the exponent; monotonicity.",
 "C48": "composition; sums invariant under permutations; case analysis on special values.",
 "C49": "composition; sums invariant under permutations; case analysis on special values.",
 "C50": "composition; sums invariant under permutations; case analysis on special values.",
 "C51": "composition; sums invariant under permutations; case analysis on special values.",
 "C52": "composition; sums invariant under permutations; case analysis on special values.",
 "C53": "composition; sums invariant under permutations; case analysis on special values.",
 "C54": "induction on lists; real exponentials and logarithms; Mathlib's interval integrals for the area.",
 "C55": "induction on lists; real exponentials and logarithms; Mathlib's interval integrals for the area.",
 "C56": "induction on lists; real exponentials and logarithms; Mathlib's interval integrals for the area.",
 "C57": "induction on lists; real exponentials and logarithms; Mathlib's interval integrals for the area.",
 "C58": "induction on lists; real exponentials and logarithms; Mathlib's interval integrals for the area.",
 "C59": "induction on lists; real exponentials and logarithms; Mathlib's interval integrals for the area.",
 "C60": "induction on lists; real exponentials and logarithms; Mathlib's interval integrals for the area.",
 "C61": "induction on lists; real exponentials and logarithms; Mathlib's interval integrals for the area.",
 "C62": "induction on lists; real exponentials and logarithms; Mathlib's interval integrals for the area.",
 "C63": "the cumulative sums over the (stably) sorted samples are refined to counts above thresholds.",
 "C64": "the cumulative sums over the (stably) sorted samples are refined to counts above thresholds.",
 "C65": "the cumulative sums over the (stably) sorted samples are refined to counts above thresholds.",
 "C66": "the cumulative sums over the (stably) sorted samples are refined to counts above thresholds.",
 "C67": "the cumulative sums over the (stably) sorted samples are refined to counts above thresholds.",
 "C68": "summation by parts from the trapezoid sums to the pair counts.",
 "C69": "summation by parts from the trapezoid sums to the pair counts.",
 "C70": "summation by parts from the trapezoid sums to the pair counts.",
 "C71": "threshold counts (C63) and case analysis on zero counts; sums of the step areas.",
 "C72": "threshold counts (C63) and case analysis on zero counts; sums of the step areas.",
 "C73": "threshold counts (C63) and case analysis on zero counts; sums of the step areas.",
 "C74": "finite sums over reals; Gibbs' inequality, squares and Cauchy–Schwarz for propriety; tables as functions of method and metric.",
 "C75": "finite sums over reals; Gibbs' inequality, squares and Cauchy–Schwarz for propriety; tables as functions of method and metric.",
 "C76": "finite sums over reals; Gibbs' inequality, squares and Cauchy–Schwarz for propriety; tables as functions of method and metric.",
 "C77": "finite sums over reals; Gibbs' inequality, squares and Cauchy–Schwarz for propriety; tables as functions of method and metric.",
 "C78": "finite sums over reals; Gibbs' inequality, squares and Cauchy–Schwarz for propriety; tables as functions of method and metric.",
 "C79": "finite sums over reals; Gibbs' inequality, squares and Cauchy–Schwarz for propriety; tables as functions of method and metric.",
 "C80": "composition with `normalize` (C55); bounds for logsumexp.",
 "C81": "composition with `normalize` (C55); bounds for logsumexp.",
 "C82": "composition of curves (C63–C73), percentiles (C38) and significance (C41), for any curve function, then for the standard ones.",
 "C83": "composition of curves (C63–C73), percentiles (C38) and significance (C41), for any curve function, then for the standard ones.",
 "C84": "composition of curves (C63–C73), percentiles (C38) and significance (C41), for any curve function, then for the standard ones.",
 "C85": "logarithm and square inequalities for sums; composition along the table loop.",
 "C86": "logarithm and square inequalities for sums; composition along the table loop.",
 "C87": "logarithm and square inequalities for sums; composition along the table loop.",
 "C88": "logarithm and square inequalities for sums; composition along the table loop.",
 "C89": "logarithm and square inequalities for sums; composition along the table loop.",
 "C90": "a state machine with a result store and estimator objects with state; histories of runs that complete, fail or die anywhere; invariant: usable entries are what the estimator predicts.",
 "C91": "composition of the tables; permutation of the test points pushed through every step.",
 "C92": "the zero probability is followed through flooring, normalisation and the finiteness check of the scores.",
 "C93": "empirical Bernstein inequality proved from scratch in `Lemmas/Bernstein.lean` (exponential moments, Chernoff bound, a lower tail for the sum of squares), matched with the constants in the code.",
 "C94": "the cells of the table (C51) are the Bernstein bars and tests of the losses or their differences; C93 applies to them.",
 "C95": "the law of the t statistic is derived in `Lemmas/TLaw.lean` (rotation of the normal distribution, density of the ratio by a change of scale) and matched with the Student density behind `studentT`.",
 "C96": "the cells of the table (C51) are the t bars and tests of the losses or their differences; C95 applies to them.",
 "C97": "An event has probability a/b when the number of permutations in it times b is a times n!. The permutations whose first N entries form a given set (or list) are mapped one to one onto those of any other set of that size by composing with a permutation that carries one to the other; summing over all sets gives the probability.",
 "C98": "A row of multinomial counts is the counts of a function Fin N -> Fin N, all equally likely. Expected products of functions of different draws factor, which gives first and second moments of sums over the draws.",
 "C99": "Export model of pandas over the strings of C22. The text is read back with an independent reader: split at newlines, strip the trailing \\\\, split at &, trim blanks.",
 "C100": "Pieces of the line have exactly the widths of adjoin; C22 with the padding of C16 gives the place of the units digit inside a cell, right justification the place in the line. C100_layout gives the whole text: every field of every line from `cellField`, with the widths of the longest entries.",
 "C101": "Direct from the fixed width function of pandas, then read off the exported text (C101_text, C101_latex use C100_layout and C99); a concrete table shows the loss.",
 "C102": "`argmin` of floats is characterised with NaN and infinity (first NaN, else first least); sums with infinite terms are NaN, infinite or the finite sum; the decision follows by cases.",
 "C103": "`scaleb` on a wide coefficient is computed exactly (half-even rounding with a carry), then the reader of C01 is applied.",
 "C104": "Model: `Model/Round.lean` (rounding as a parameter, `binary64` constructed as nearest-even with 53 bits and unbounded exponents), `Model/PerfRound.lean` (the curve functions again, every operation rounded, `np.sum` a parameter). Proof: closed form of each curve as an if over one check; monotonicity of rounding carries the order through sums and quotients, `cummax` and the rescaling to the last value force the ends.",
 "C105": "Standard error analysis: running sums along a chain and `np.sum` along any tree of additions have relative error (1+u)^n - 1 <= 2nu; hence the allclose check of line 118 passes. `C105_fails` and `C105_precision_fails` compute the failures in `binary64`.",
 "C106": "Unweighted: all counts are integers below 2^53, so only the final quotient is rounded. Weighted: forward error of numerator and denominator, then of the quotient.",
 "C107": "Model: `Model/BootRound.lean`. Proof: monotonicity and oddness bound the computed positions by (n-1)/2 on either side because halves of integers are floats; relative error along the five operations bounds their distance to the exact positions; coherence by counting entries beyond the ends, two numeric lemmas.",
 "C108": "Model: `Model/MlpaperRound.lean`, library functions as a parameter `Lib`, contracts `GoodLib` in `Spec/FloatLib.lean`; `doubleLib_good` shows that correctly rounded functions meet them. Proof: error of sums along trees, mean within the tolerance of `clip_chk`, signs of every intermediate result, percentiles by C107.",
 "C109": "Proof: the clipped mean equals the mean iff the mean is within the limits; sums of n numbers below M stay below nM if all multiples are floats (induction on the tree of additions). `C109_fails` evaluates the rounding in the kernel.",
 "C110": "Refinement, function by function: `rF id v = v`, `cumsumR id = cumsum`, and so on up to `C110_table`.",
 "C111": "Proof: induction on the tree of additions with signed numbers, then the division.",
 "C112": "Model: `checkCurve`, `checkGrid`, `curveBoot` in `Model/CurveBoot.lean`; spec `Drawable`, `CoversGrid` in `Spec/CurveBoot.lean`, in terms of order and finiteness. Proof: `all(diff >= 0)` for finite rows is monotonicity.",
 "C113": "Model: `Model/CurveRound.lean` (every operation of `util.py` 148–360 and `classification.py` 277–524 rounded). Proof: unfolding both, with C110 for `boot_util`.",
 "C114": "Model: `areaR`, `interp1dR`, `evalStepFuncR`, `uniqueTakeLastR`, `checkCurveR` in `Model/CurveRound.lean`; the reference values are those of the exact model. Proof: every piece has a relative error (`Near`), then the error of sums along trees; for interpolation the slope, the product and the final addition in turn.",
 "C115": "Model: `curveBootR`, `curveSummaryTableR` in `Model/CurveRound.lean` with the curve functions of `Model/PerfRound.lean`; spec `UnitCurveAt`, `AreaOfR`, `CurveAtR`, `RefAreasOfR`. Proof: C104 (shape of the curves), C105 (they are computed), C107 (percentiles) and C114 (areas and values).",
 "C116": "Model: `rocCurveR`, `recallPrecisionCurveR`, `areaR`, `curveBootR`; the reference value is the spec's `mannWhitney` (for recall-precision the exact area of the exact model). Proof: C106 bounds each rate, `trap_area_within`/`rect_area_within` sum the errors over the pieces, C114 bounds the rounding of the sum, C68 turns the exact area into the statistic.",
 "C117": "Model: `bootWeights`, `rocCurve`, `area`, and their floating point versions; spec `usedCounts`, `repeated`, `mannWhitney`. Proof: the statistic is a ratio of sums over pairs, does not change if the weights of one class are scaled, and adding weight to a ratio with numerator at most its denominator moves it by at most the relative change of the denominator.",
 "C118": "C118_criterion characterises success of the whole formatter from C10 (conversion), C20 (columns), C15 (a best shift exists), C16 (padding) and C18 (headers). The conditions on the numbers follow from where the last digit of a rounded float is (createDecimal_exp). C118_pipeline combines this with C108_table.",
 "C119": "Model.LossRound has one rounded version for each function, parametrised by a library `Lib` (rounding, sums, sqrt, log, exp, ...) and an inner product. Each theorem instantiates the library with `exactLib` and shows equality with the exact model, error results included.",
 "C120": "Sums of non-negative floats along any tree are at least each of their terms and at most their number (tree_ge_leaf, sum_le_length), so logsumexp is at least the largest entry and the differences round to at most 0; squares of numbers in [-1,1] round into [0,1]. Certain predictions have only zeros and ones in every sum, which are added exactly. doubleLib_expLog, doubleDot_error: double precision satisfies what is asked.",
 "C121": "Composition of the floating point model of all modules: predictions (PredRound), losses (C120), loss_table (C121_columns), loss_summary_table (C108, C109), curve_boot (C115). The limits must be infinite or on a grid of floats since loss_summary_table asserts that clipping does not move the computed mean (C109).",
 "C122": "Model of the losses with a rounding after every operation (Model/LossRound.lean). Standard error analysis with factors 1+d for the accuracy; rounding is monotone and odd, which gives the order of the losses; the benchmark composes C88, the loss table and C108/C109.",
 "C123": "Model of the function on a heap of arrays, entry by entry as the loop writes (Model/UtilHeap.lean). Invariant of the loop: the part before index ii is final, the part from ii on is still the input. So the loop writes what the functional model computes, and the statements follow from the frame of single writes.",
 "C124": "Model of str.format with one argument as a scanner with the numbering state (Model/FormatStr.lean) and of both functions with the format strings as arguments. Induction over the quoted text and the field.",
 "C125": "Model of the losses in floating point (Model/LossRound.lean). Error analysis step by step: exp of a perturbed argument, sums along any tree, log of a relatively perturbed total.",
 "C126": "Model of the benchmark in floating point (Model/LossRound.lean). Rows that are normalised up to a shift error T; effect of T on each loss; two normalisations compose to 2 T1 + T2; error of the mean by C111.",
 "C127": "IEEE rounding with exponent limits (Model/Ieee.lean), shown to be rounding to nearest even on the doubles of Spec/Double.lean. Every intermediate result is shown to be a multiple of 2^-k below 2^e (OnGrid), with k and e followed through each function (counts, rates, gains, areas, interpolation, percentiles); inside these limits the IEEE rounding equals binary64.",
 "C128": "GradualRounding (Spec/FloatLib.lean) describes a rounding with relative error u plus absolute error tiny that is purely relative on sums of floats and exact on small differences of floats; the lemmas of MeanRound, StatsRound and TableGradual are proved for every such rounding. C108 and C109 are the case tiny = 0. IEEE rounding (Model/Ieee.lean) is shown to be of this kind with u = 2^-53, tiny = 2^-1022.",
 "C129": "IeeeLib (Spec/IeeeLib.lean) is a library whose rounding follows IEEE 754 and is unknown on overflow. wideLib is the same library with ieeeRound, which has no largest exponent. StatsIeee, BernsteinIeee and TableOverflow bound every intermediate result by a power of two, function by function, and conclude that the two libraries give the same table; C128 is then applied to wideLib.",
 "C130": "Props/LargeSample.lean: central limit theorem and strong law of Mathlib, Slutsky's lemma, applied to the t statistic the code computes; convergence of the quantiles of the t distribution to the normal ones is obtained by applying the same result to normal data, for which C95 gives the exact law.",
 "C131": "GrowingTable (Props/LargeSampleTable.lean) says what the table contains; cells are identified by C51, then C130 is applied to the losses or the differences to the reference.",
 "C132": "Props/Consistency.lean: strong law for mean and sample variance; bounded t quantiles by C130; the widths of C45 and C47 tend to 0; p-values by C45 and by the duality C46 between test and interval.",
 "C133": "Props/ErrorBarRound.lean, Props/MeanEBAccuracy.lean: the rounded deviations are a perturbation of the vector of exact ones, compared in the Euclidean norm; factors are handled by relative nearness (Lemmas/NearRel.lean); clipping is a contraction.",
 "C134": "Props/TableEBAccuracy.lean, Props/TableAccuracy.lean: C133 for the rounded differences plus the effect of rounding the differences on the exact error bar; cells are identified on both sides.",
 "C135": "Props/RoundedCoverage.lean: C93 and C95 for the exact interval of the same data, then C133 and C134 cell by cell.",
 "C136": "Props/PrintedCoverage.lean: a reader of the padded text is specified (Shows, PrintedEst); C22 gives the text of a cell, the reader recovers its number, and the rounding of the two decimals is added to C135. Props/PrintedCoverageDouble.lean: coin tosses and rounded normal numbers in double precision.",
 "C137": "Props/TableFloats.lean: every entry is the result of a rounded operation, a clip or a library function, followed through get_mean_EB_test; existence of the printed table from dyadic floats, printing from C118.",
 "C138": "Props/PValueAccuracy.lean: perturbation of the non-negative root of the quadratic equation (exponent_close), of its rounded coefficients with C111 and C133, of the exponential; the table by summaryCellR_test; false alarms from C93, the text from C06, C12 and C22. Props/PValueAccuracyDouble.lean: double precision with correctly rounded roots, and the table of coin tosses.",
 "C139": "Props/TTestAccuracy.lean: Student's distribution function grows at most with slope 3/5 and at most by half the relative increase of its argument (student_growth) and its tail is at most 6/(5T) (student_tail); perturbation of mean and standard error with C111 and C133; the table by summaryCellR_test; false alarms from C95, the text from C138_cell. Props/TTestAccuracyDouble.lean: double precision with a correctly rounded survival function, and a table of normal losses.",
 "C140": "Props/BootLimit.lean (cases in BootLimitEx.lean). Draws: an endless stream of independent draws, each of the N^N ways equally likely (`DrawStream`); the model gets the first n rows. Strong law of large numbers and Hoeffding's inequality for the share of replicates on either side of a point, then the closed form of `significance` and the order statistics of `percentile`.",
 "C141": "Spec/BenchRisk.lean (populations, risks, what a table shows), Props/BenchRisk.lean and RegrRisk.lean (the losses in the table are the scores of the points), Props/BenchCover.lean (coverage of the cells), Props/BenchPromise.lean and BenchPromiseRegr.lean (the theorems), cases in BenchPromiseEx.lean. The predictions of a trained method for the test set are a function of each test point (`TestSet`, `RegrTestSet`); the test points are independent draws (`Drawn`). The losses of the table are then the scores of independent points and the coverage results for tables apply.",
 "C142": "Spec/Ranking.lean (populations, the probability of ranking correctly), Props/Ranking.lean (expected value and variance of the share of ordered pairs), Props/RankingBench.lean (the AUC of a benchmark is that share, through C68, C81, C82 and C84; the theorems), cases in RankingEx.lean. Pairs of pairs without a common case are independent; the others have covariance at most 1/4. Props/RankingStd.lean (the column labelled AUC of STD_BINARY_CURVES).",
 "C143": "Spec/WholeTable.lean (the conclusions: Below, WithinBars, Ahead, Behind), Props/WholeTable.lean (from C141 by the union bound; the conclusions follow from the error bars deterministically), cases in WholeTableEx.lean.",
 "C144": "Model/DecimalLimits.lean (`_fix`, `quantize`, `scaleb` with Emax and Emin, and the functions of sciprint.py on top), Spec/DecimalLimits.lean (floats, places of digits), Props/DecimalLimits.lean (equality with the model without limits, function by function, by bounding the places of the digits).",
 "C145": "Spec/Exchange.lean (odd rounding and sums, mirrored positions), Props/Exchange.lean (every function on the negated differences, then cells and whole tables; exact arithmetic via C110; the positions at confidence 0.95 in double precision).",
 "C146": "Spec/Units.lean (a value, table, limits and cell in other units), Props/Units.lean (every function of mlpaper.py and boot_util.py on changed losses, then cells and whole tables, as an equation between calls including errors).",
 "C147": "Lemmas/TwoSample.lean (Hoeffding's inequality for averages over all pairs of two samples, by cyclic shifts and sub-Gaussian moment generating functions), Props/RankingTail.lean. Props/RankingTailStd.lean (the column labelled AUC of STD_BINARY_CURVES).",
 "C148": "Spec/Sensitivity.lean (number of changed points), Props/Sensitivity.lean (sums by induction, pairs of cases by counting). Props/RankingTailStd.lean (the column labelled AUC of STD_BINARY_CURVES).",
 "C149": "Model/RegrIeee.lean (the three losses with ieee64 after each operation), Spec/RegrIeee.lean (nearest double with overflow), Props/RegrIeee.lean (monotonicity of rounding, case analysis at the exponent limits), Props/RegrIeeeExamples.lean (the contract holds for a correctly rounded library).",
 "C150": "Model/ClassIeee.lean (normalize and brier_loss with ieee64 after each operation), Spec/ClassIeee.lean (what is asked of exp, log and sums), Props/ClassIeee.lean (logsumexp is a double between the largest entry and 2048 above it), Props/ClassIeeeBrier.lean (no operation of brier_loss overflows; a correctly rounded library meets the hypotheses). Props/ClassIeeeAgree.lean (normalize of entries of moderate size, and which inputs raise)."
}