{"id": "C01", "title": "Printed estimate can be read back exactly", "statement": "When print_estimate(mu, EB, shift) prints an unclipped finite mu (at most 28 significant digits) with a finite EB of the same quantum, a reader who strips the commas, reads the part before '(' as a decimal and the digits in parentheses as an error in units of the last printed place recovers exactly mu*10^shift and EB*10^shift, with the same number of decimal places. With a non-finite EB the string has no parenthesis and reads back to exactly mu*10^shift.", "quantifier": "every finite Decimal mu and EB (any sign, coefficient, exponent) and every integer shift that is accepted", "why_tests_cant": "the coefficient, exponent and shift are unbounded; comma placement, leading zeros and the position of the point change with every length", "anchors": ["mlpaper/sciprint.py:print_estimate", "mlpaper/sciprint.py:digit_str", "mlpaper/constants.py:GEN_FMT"]}
{"id": "C02", "title": "No exponent notation, fixed alphabet, commas every three digits", "statement": "Any finite number printed by print_estimate or print_pval uses only digits, ',', '.', '-', '(' and ')', with an optional leading '<' or '>' for clipped values; it never contains 'E', and commas split the integer part into groups of exactly three digits counted from the point.", "quantifier": "every Decimal, shift and clip limit for which print_estimate returns", "why_tests_cant": "a sampled test cannot rule out exponent notation or a misplaced comma for some magnitude", "anchors": ["mlpaper/sciprint.py:print_estimate", "mlpaper/sciprint.py:print_pval", "mlpaper/constants.py:GEN_FMT", "mlpaper/constants.py:ABOVE_FMT", "mlpaper/constants.py:BELOW_FMT"]}
{"id": "C03", "title": "print_estimate outcome is decided by clip, then non-finite, then precision", "statement": "print_estimate returns '>'+max_clip*10^shift when mu is above max_clip, '<'+min_clip*10^shift when mu is below min_clip, the (possibly re-mapped) non-finite name when mu is not finite, raises ValueError exactly when the unclipped finite mu has no digit at the units place after the shift, and otherwise prints mu with EB. A clipped value is never printed with an error bar.", "quantifier": "every mu (finite, infinite, NaN), EB, shift, min_clip < max_clip and every non-finite mapping", "why_tests_cant": "the branches interact (infinite mu against finite or infinite clips, NaN skipping the clip); tests sample a few combinations", "anchors": ["mlpaper/sciprint.py:print_estimate", "mlpaper/sciprint.py:decimal_to_dot"]}
{"id": "C04", "title": "create_decimal rounds to significant digits as documented", "statement": "create_decimal(x, digits, rounding) returns a Decimal with at most `digits` significant digits whose value is, for ROUND_CEILING, the least value >= x among all decimals of that many digits at the result's quantum (so x <= y), and for ROUND_HALF_UP within half a unit in the last place of x with ties away from zero. Values that already fit are returned unchanged.", "quantifier": "every finite float x (as an exact dyadic rational), every digits >= 1 and both rounding modes", "why_tests_cant": "carry cases such as 0.0999 -> 0.10 and exact ties are measure-zero for random tests", "anchors": ["mlpaper/sciprint.py:create_decimal"]}
{"id": "C05", "title": "Error bars are never understated by decimalize", "statement": "For every finite non-negative error the Decimal error in decimalize's table is >= the float error and exceeds it by less than one unit in its last kept place, and keeps at most err_digits significant digits; zero stays zero, inf stays inf and NaN stays NaN.", "quantifier": "every float error >= 0 including 0, inf and NaN, every err_digits >= 1, no EB_limit for the metric", "why_tests_cant": "the rounding direction must hold for every float, including those one ulp above a power of ten", "anchors": ["mlpaper/sciprint.py:decimalize", "mlpaper/sciprint.py:create_decimal"]}
{"id": "C06", "title": "p-values are never understated by decimalize and stay in [0, 1]", "statement": "For every p in [0,1] the Decimal p-value satisfies p <= p_dec < p + 10^-pval_digits, is a multiple of 10^-pval_digits and is again in [0,1], so the internal range assertion cannot fail; NaN stays NaN.", "quantifier": "every float p in [0,1] or NaN and every pval_digits >= 1 (up to the 28-digit context)", "why_tests_cant": "needs the statement for every float and precision, including p within an ulp of 1", "anchors": ["mlpaper/sciprint.py:decimalize"]}
{"id": "C07", "title": "Mean is rounded half-up to the quantum of its error bar", "statement": "When the (rounded, unclipped) error is finite and non-zero, the Decimal mean has the same exponent as the Decimal error and differs from the float mean by at most half of that quantum, ties away from zero; otherwise it is the mean rounded half-up to default_digits significant digits.", "quantifier": "every finite float mean and every error", "why_tests_cant": "ties and sign combinations are rare events in random tests", "anchors": ["mlpaper/sciprint.py:decimalize", "mlpaper/sciprint.py:create_decimal"]}
{"id": "C08", "title": "decimalize output always fits print_estimate's quantum requirement", "statement": "For any (mean, error, p) entry that decimalize accepts, calling print_estimate on the resulting Decimals (any shift and any valid clips) never fails its assertions (matching quantum, non-negative error, no exponent); the only exception it may raise is the documented ValueError about precision.", "quantifier": "every table entry accepted by decimalize, every option value, every shift and clip pair", "why_tests_cant": "is a contract between two functions over all values in between", "anchors": ["mlpaper/sciprint.py:decimalize", "mlpaper/sciprint.py:print_estimate"]}
{"id": "C09", "title": "EB_limit turns exactly the too-large errors into infinity", "statement": "With EB_limit[metric]=k the Decimal error is infinite exactly when the rounded-up error exceeds 10^k (or the error was infinite); a metric without a limit is never clipped; and when it is clipped the mean falls back to default_digits significant digits and is printed without parentheses.", "quantifier": "every error and every integer limit", "why_tests_cant": "boundary equality error = 10^k and rounding across the limit are not reachable by sampling", "anchors": ["mlpaper/sciprint.py:decimalize", "mlpaper/sciprint.py:print_estimate"]}
{"id": "C10", "title": "decimalize rejects exactly the entries it cannot represent", "statement": "For a finite mean, a non-negative non-NaN error and p in [0,1], decimalize raises InvalidOperation exactly when the mean rounded to the error's quantum needs more than 28 digits; an infinite mean with a finite non-zero error also raises InvalidOperation; a negative error raises AssertionError; a table converts exactly when at least one p-value digit is asked for and every cell converts, and no p-value digit is an AssertionError.", "quantifier": "every entry and option", "why_tests_cant": "needs means 10^26 times larger than their error, which random tests do not produce", "anchors": ["mlpaper/sciprint.py:decimalize"]}
{"id": "C11", "title": "print_pval prints '<eps' exactly at or below the quantum and the exact value otherwise", "statement": "For a Decimal p in [0,1] with exponent -k: if p <= 10^-k the string is '<' followed by 10^-k; otherwise the string reads back to exactly p. NaN prints the mapped NaN name.", "quantifier": "every p-value and precision", "why_tests_cant": "all precisions and all values", "anchors": ["mlpaper/sciprint.py:print_pval", "mlpaper/sciprint.py:decimal_eps"]}
{"id": "C12", "title": "A printed '<0.0001' is a strict claim about the original float", "statement": "If decimalize followed by print_pval prints '<10^-k', then the original float p-value was strictly smaller than 10^-k (a power of ten below one is not a binary float, so rounding up to it means being strictly below).", "quantifier": "every float p and every pval_digits >= 1", "why_tests_cant": "is a number-theoretic fact about all dyadic rationals", "anchors": ["mlpaper/sciprint.py:decimalize", "mlpaper/sciprint.py:print_pval"]}
{"id": "C13", "title": "get_shift_range bounds are sound and tight", "statement": "get_shift_range returns multiples of shift_mod with min <= max such that every multiple of shift_mod in the range keeps every estimate defined to the point; max+shift_mod would not; and unless all_small is reported, every shift in the range puts some estimate's leading digit at or left of the point while min-shift_mod would not. all_small is reported exactly when no multiple of shift_mod satisfies both.", "quantifier": "every non-empty list of finite Decimals and every shift_mod >= 1", "why_tests_cant": "list length, exponents and modulus are unbounded", "anchors": ["mlpaper/sciprint.py:get_shift_range", "mlpaper/sciprint.py:floor_mod", "mlpaper/sciprint.py:ceil_mod"]}
{"id": "C14", "title": "find_shift returns the most compact shift, preferring small shifts", "statement": "Among all multiples of shift_mod in the allowed range find_shift returns one minimising the width (characters other than ',' and '.') of the longest printed estimate, and among the minimisers one of least absolute value; the result does not depend on how the sort breaks ties except between k and -k.", "quantifier": "every list of (mean, error) pairs it accepts, every shift_mod >= 1 and every tie order of the sort", "why_tests_cant": "optimality over an input-dependent range and unspecified sort order", "anchors": ["mlpaper/sciprint.py:find_shift", "mlpaper/sciprint.py:str_print_len"]}
{"id": "C15", "title": "The chosen shift always prints", "statement": "For any list of (mean, error) pairs with matching quanta, find_shift succeeds and print_estimate with that shift succeeds on every pair (no ValueError, no assertion failure); an empty list gives shift 0; lists of different lengths, a mean that is not finite and a modulus below one raise AssertionError.", "quantifier": "every list of pairs, every shift_mod >= 1", "why_tests_cant": "success must hold for every list", "anchors": ["mlpaper/sciprint.py:find_shift", "mlpaper/sciprint.py:print_estimate"]}
{"id": "C16", "title": "Padding aligns the decimal points", "statement": "pad_num_str appends only pad characters, gives every string the same number of characters after its units digit (so right-aligned columns line up at the point) and leaves at least one string unpadded; it fails only on an empty list or on a string whose first character is the point, '(' or the end.", "quantifier": "every list of strings and every pad character", "why_tests_cant": "every list length and string shape", "anchors": ["mlpaper/sciprint.py:pad_num_str", "mlpaper/sciprint.py:find_last_dig"]}
{"id": "C17", "title": "floor_mod and ceil_mod are the nearest multiples", "statement": "floor_mod(x, m) is the largest multiple of m that is <= x and ceil_mod(x, m) the smallest multiple >= x, for m >= 1 and every integer x including negatives.", "quantifier": "every integer x and every m >= 1", "why_tests_cant": "unbounded integers, negative values included", "anchors": ["mlpaper/sciprint.py:floor_mod", "mlpaper/sciprint.py:ceil_mod"]}
{"id": "C18", "title": "Headers state the true scale", "statement": "In adjust_headers, for an estimate column with shift s: if an SI prefix is shown it is the SI prefix whose factor is 10^-s, so (printed value) x (prefix factor) equals the unshifted value; if no prefix is shown and s is not 0 the header shows the exponent s; with s = 0 no scale is shown. p columns are always 'p' (in braces in TeX mode).", "quantifier": "every shift, unit dictionary, metric name and flag combination", "why_tests_cant": "the fallbacks for unlisted shifts are an infinite family", "anchors": ["mlpaper/sciprint.py:adjust_headers", "mlpaper/constants.py:_PREFIX", "mlpaper/constants.py:_PREFIX_TEX"]}
{"id": "C19", "title": "TeX scale header contains a tab instead of \\times", "statement": "With use_tex=True, every header that falls back to the explicit power-of-ten form contains a TAB character followed by 'imes' and no backslash before it (unless the metric name or unit itself contains one): the format string is not raw, so LaTeX never sees \\times.", "quantifier": "every metric, non-zero shift and unit for which the fallback is used", "why_tests_cant": "the existing tests never look at TeX headers; the claim covers every fallback header", "anchors": ["mlpaper/sciprint.py:adjust_headers"]}
{"id": "C20", "title": "format_table uses one shift per metric and prints every entry with it", "statement": "When format_table succeeds, every estimate cell is print_estimate of that entry with the metric's single reported shift and clips (then padded), every p cell is print_pval of that entry, rows keep their order, metrics come in sorted order, and each reported shift is 0 when shift_mod is None and otherwise the find_shift of the unclipped entries.", "quantifier": "every table of Decimals and every option", "why_tests_cant": "all tables", "anchors": ["mlpaper/sciprint.py:format_table"]}
{"id": "C21", "title": "format_table accepts infinite means only behind a crap limit and never NaN means", "statement": "A NaN mean makes format_table fail; an infinite mean fails unless the metric has a crap limit on that side, in which case it is printed as clipped; with shift_mod=None a finite unclipped mean not defined to the point raises ValueError.", "quantifier": "every table and crap limit dictionary", "why_tests_cant": "error branches over all tables", "anchors": ["mlpaper/sciprint.py:format_table", "mlpaper/sciprint.py:find_shift"]}
{"id": "C22", "title": "End to end: the printed cell is faithful to the float table", "statement": "For decimalize followed by format_table (as in just_format_it), an unclipped cell 'm(e)' in a column with shift s, read back as in C01, satisfies |m*10^-s - mean| <= half a unit of the last printed place (scaled back) and e*10^-s >= the float error, with excess under one unit of the last place.", "quantifier": "every float table accepted by just_format_it and all options", "why_tests_cant": "a whole-pipeline guarantee over all floats", "anchors": ["mlpaper/sciprint.py:just_format_it", "mlpaper/sciprint.py:decimalize", "mlpaper/sciprint.py:format_table"]}
{"id": "C23", "title": "remove_chars deletes exactly the listed characters", "statement": "remove_chars(x, chars) is the subsequence of x of the characters not in chars, and str_print_len(x) is the number of characters of x other than ',' and '.'.", "quantifier": "every string and deletion set", "why_tests_cant": "every string", "anchors": ["mlpaper/util.py:_remove_chars_py3", "mlpaper/sciprint.py:str_print_len"]}
{"id": "C24", "title": "Decimal helpers mean what they say", "statement": "decimal_1ek(k, signed) has value +-10^k (and the infinities for 'F'); decimal_eps(x) is one unit in the last place of x; decimal_to_dot(x) holds exactly when x is finite and defined at the units place; digit_str lists exactly the digits of the coefficient; all_same(L) holds exactly when any two elements are equal; as_tuple_chk and digit_str raise ValueError exactly on non-finite input.", "quantifier": "every Decimal, exponent and list", "why_tests_cant": "every value", "anchors": ["mlpaper/sciprint.py:decimal_1ek", "mlpaper/sciprint.py:decimal_eps", "mlpaper/sciprint.py:decimal_to_dot", "mlpaper/sciprint.py:digit_str", "mlpaper/sciprint.py:all_same", "mlpaper/sciprint.py:as_tuple_chk", "mlpaper/sciprint.py:decimal_from_tuple"]}
{"id": "C25", "title": "split_df partitions the rows", "statement": "Every row of df ends up in exactly one of train, test and unused, with its original order and contents; the three row counts add up to len(df).", "quantifier": "every non-empty frame, every split dictionary, every outcome of the random choices", "why_tests_cant": "all frames and all random outcomes", "anchors": ["mlpaper/data_splitter.py:split_df"]}
{"id": "C26", "title": "split_df is the conjunction over split columns and order independent", "statement": "A row is in train exactly when every column split places it in train, in test exactly when every split places it in test; reordering the split dictionary (with the same per-column outcome) does not change the result.", "quantifier": "every dictionary, order and random outcome", "why_tests_cant": "all orders and outcomes", "anchors": ["mlpaper/data_splitter.py:split_df"]}
{"id": "C27", "title": "A single split leaves nothing unused", "statement": "With one entry in splits, unused is empty and train/test are complements.", "quantifier": "every frame and every single split", "why_tests_cant": "all frames", "anchors": ["mlpaper/data_splitter.py:split_df"]}
{"id": "C28", "title": "Random subsets and masks have exactly the rounded-up size", "statement": "rand_subset(x, frac) returns ceil(frac*len(x)) distinct positions of x and rand_mask marks exactly that many True; the size assertions can never fail, for any monotone rounding of the floating product that is exact on integers.", "quantifier": "every list, every frac in [0,1], every random permutation and every such rounding function", "why_tests_cant": "floating rounding and random outcomes are unbounded", "anchors": ["mlpaper/data_splitter.py:rand_subset", "mlpaper/data_splitter.py:rand_mask"]}
{"id": "C29", "title": "Random splits never separate equal values", "statement": "random_split_series without assume_unique gives equal values the same side, and marks exactly ceil(frac*u) of the u distinct values as train.", "quantifier": "every series, frac and random outcome", "why_tests_cant": "all random outcomes", "anchors": ["mlpaper/data_splitter.py:random_split_series"]}
{"id": "C30", "title": "assume_unique does not change a random split of unique data", "statement": "For a series with distinct values, random_split_series gives the same mask with and without assume_unique for the same random permutation.", "quantifier": "every series of distinct values and every permutation", "why_tests_cant": "all permutations", "anchors": ["mlpaper/data_splitter.py:random_split_series", "mlpaper/data_splitter.py:rand_mask", "mlpaper/data_splitter.py:rand_subset"]}
{"id": "C31", "title": "Ordered splits are a closed lower set and err towards train", "statement": "When ordered_split_series succeeds, train is exactly the rows whose value is <= some value of the series, the smallest value is in train, the train share of distinct values is >= frac and dropping the largest train value would make it < frac; sortedness and uniqueness hints do not change the result when they are true.", "quantifier": "every series and frac in [0,1]", "why_tests_cant": "all series", "anchors": ["mlpaper/data_splitter.py:ordered_split_series"]}
{"id": "C32", "title": "Ordered splits abort when the fraction is hit exactly", "statement": "With u distinct values and exact arithmetic, ordered_split_series raises AssertionError exactly when frac*u is an integer strictly between 0 and u (for instance 10 values and frac 0.5), instead of returning the split.", "quantifier": "every series and frac in [0,1]", "why_tests_cant": "tests draw random fractions, which never hit an exact count; the characterisation is an iff over all inputs", "anchors": ["mlpaper/data_splitter.py:ordered_split_series"]}
{"id": "C33", "title": "Linear splits cut at the interpolated point", "statement": "linear_split_series puts in train exactly the rows with value <= (1-frac)*min+frac*max; the minimum is always in train; frac=1 puts everything in train; frac=0 only the minima; train grows with frac; the result is the same with a true assume_sorted hint.", "quantifier": "every finite series and frac in [0,1]", "why_tests_cant": "all series", "anchors": ["mlpaper/data_splitter.py:linear_split_series"]}
{"id": "C34", "title": "Splitters reject bad input", "statement": "All splitters raise AssertionError on a NaN value or a fraction outside [0,1]; split_df raises AssertionError on empty splits or an empty frame and KeyError on an unknown split type or column; linear_split_series raises AssertionError on infinite end points.", "quantifier": "every input", "why_tests_cant": "all inputs", "anchors": ["mlpaper/data_splitter.py:split_df", "mlpaper/data_splitter.py:rand_subset", "mlpaper/data_splitter.py:ordered_split_series", "mlpaper/data_splitter.py:linear_split_series"]}
{"id": "C35", "title": "build_lag_df always raises TypeError on Python 3", "statement": "build_lag_df never returns: after concatenating the lagged frames it evaluates range(...) + [0], which is a TypeError in Python 3 for every frame, n_lags, stride and features for which the earlier steps succeed. The frame it has built by then is the documented one: every column at lag 0 and, for each lag k in 1..n_lags-1 and each requested feature, a column whose row i is row i - stride*k of that feature, missing where there is no such row.", "quantifier": "every call", "why_tests_cant": "the function has no tests; the claim is about every input", "anchors": ["mlpaper/data_splitter.py:build_lag_df"]}
{"id": "C36", "title": "Bootstrap weights are resampling", "statement": "For every outcome of boot_weights with epsilon=0, each row is a vector of non-negative integers summing to N, and the weighted mean mean(x*w) equals the mean of some resample (with replacement, size N) of x, hence lies between min(x) and max(x); with epsilon > 0 every weight is >= epsilon.", "quantifier": "every N, n_boot, data vector and multinomial outcome", "why_tests_cant": "all random outcomes", "anchors": ["mlpaper/boot_util.py:boot_weights", "mlpaper/mlpaper.py:_boot_EB_and_test"]}
{"id": "C37", "title": "confidence_to_percentiles is symmetric", "statement": "For confidence in (0,1) the two percentiles satisfy 0 < LB < 50 < UB < 100, LB + UB = 100 and UB - LB = 100*confidence; any other confidence raises AssertionError.", "quantifier": "every confidence", "why_tests_cant": "all reals", "anchors": ["mlpaper/boot_util.py:confidence_to_percentiles"]}
{"id": "C38", "title": "Percentile intervals are ordered sample values with enough coverage", "statement": "percentile returns LB <= UB, both are bootstrap values, and at least a `confidence` fraction of the bootstrap values lie in [LB, UB]; the result does not depend on the order of the bootstrap values.", "quantifier": "every non-empty sample without NaN and every confidence in (0,1)", "why_tests_cant": "all samples", "anchors": ["mlpaper/boot_util.py:percentile"]}
{"id": "C39", "title": "Higher confidence gives a wider interval and larger error bar", "statement": "If c1 <= c2 the percentile interval at c1 is contained in the one at c2 and error_bar at c1 <= error_bar at c2.", "quantifier": "every sample and pair of confidences", "why_tests_cant": "all pairs", "anchors": ["mlpaper/boot_util.py:percentile", "mlpaper/boot_util.py:error_bar"]}
{"id": "C40", "title": "error_bar is the same for percentile and basic intervals and is tight", "statement": "error_bar is >= 0, the interval estimate +- EB contains both the percentile and the basic interval, touches at least one end of each, and computing it from the basic interval gives the same number; its internal assertions never fail on finite input.", "quantifier": "every finite sample, estimate and confidence", "why_tests_cant": "all samples", "anchors": ["mlpaper/boot_util.py:error_bar", "mlpaper/boot_util.py:basic"]}
{"id": "C41", "title": "significance is a two-sided p-value", "statement": "significance is in [0,1], is invariant under negating both arguments, under swapping sample and reference (paired), under adding a constant to both, under reordering, and equals the test of the difference against 0; it is 0 exactly when all bootstrap values are strictly on one side of the reference.", "quantifier": "every sample and scalar or paired reference without NaN", "why_tests_cant": "all samples", "anchors": ["mlpaper/boot_util.py:significance"]}
{"id": "C42", "title": "A reference outside the confidence interval is significant", "statement": "If the reference lies strictly outside percentile(boot, confidence) then significance(boot, ref) < 1 - confidence.", "quantifier": "every sample, confidence and scalar reference", "why_tests_cant": "all samples; boundary counts are rare", "anchors": ["mlpaper/boot_util.py:percentile", "mlpaper/boot_util.py:significance"]}
{"id": "C43", "title": "The converse coherence can fail", "statement": "significance(boot, ref) < 1 - confidence does not imply that ref is outside percentile(boot, confidence): there are samples where the reference is inside the interval and still significant; it does hold when significance <= (1-confidence)*(n-1)/n.", "quantifier": "existence of a sample, and every sample for the corrected bound", "why_tests_cant": "the source comment claims coherence; tests only use confidence = 1 - p", "anchors": ["mlpaper/boot_util.py:percentile", "mlpaper/boot_util.py:significance"]}
{"id": "C44", "title": "clip_EB keeps error bars between the minimum and the trivial bar", "statement": "For non-NaN input, clip_EB raises ValueError exactly when mu is outside [lower, upper] or 2*min_EB exceeds the range, and otherwise returns a value in [min_EB, max(upper-mu, mu-lower)] that equals EB when EB is already there; the returned interval covers everything of [mu-EB, mu+EB] that lies in [lower, upper]; a NaN EB stays NaN; idempotent.", "quantifier": "every float argument including infinities and NaN", "why_tests_cant": "special-value combinations", "anchors": ["mlpaper/mlpaper.py:clip_EB"]}
{"id": "C45", "title": "t-test and t error bar agree", "statement": "For a sample of at least two finite values that are not all zero, t_test <= 1 - c holds exactly when |mean| >= the t error bar at confidence c, for every c in (0,1) and every symmetric reference distribution (such as Student t); the test is in [0,1], the error bar is >= 0 and grows with c; both give (inf, 1) for fewer than two or non-finite points, and p = 1 when the mean is zero.", "quantifier": "every sample, confidence and reference distribution with the listed properties", "why_tests_cant": "all samples", "anchors": ["mlpaper/mlpaper.py:t_test", "mlpaper/mlpaper.py:t_EB"]}
{"id": "C46", "title": "Bernstein test and error bar agree", "statement": "For bounded finite data of at least two points and positive range, bernstein_test(x) <= 1-c exactly when |mean(x)| >= bernstein_EB(x, c).", "quantifier": "every sample, limits and confidence", "why_tests_cant": "a duality through a quadratic root and an exponential for all inputs", "anchors": ["mlpaper/mlpaper.py:bernstein_test", "mlpaper/mlpaper.py:bernstein_EB"]}
{"id": "C47", "title": "Bernstein bounds are in range and monotone", "statement": "bernstein_test is in [0,1] and its internal assertions (two real roots, one on each side of 0) never fail; bernstein_EB is >= 0, increases with confidence and is >= 3*log(3)*range/N; degenerate input gives p=1 and EB=range.", "quantifier": "every sample, limits and confidence", "why_tests_cant": "all inputs", "anchors": ["mlpaper/mlpaper.py:bernstein_test", "mlpaper/mlpaper.py:bernstein_EB"]}
{"id": "C48", "title": "Bootstrap error bar and test share their weights", "statement": "boot_EB and boot_test return what _boot_EB_and_test returns for the same weights; EB >= 0, p in [0,1]; too little or non-finite data gives (inf, 1).", "quantifier": "every sample and multinomial outcome", "why_tests_cant": "all outcomes", "anchors": ["mlpaper/mlpaper.py:_boot_EB_and_test", "mlpaper/mlpaper.py:boot_EB", "mlpaper/mlpaper.py:boot_test"]}
{"id": "C49", "title": "The three summary entry points agree", "statement": "For the same data, limits, method and random outcome, get_mean_EB_test returns the pair of get_mean_and_EB together with the p-value of get_test, and fails exactly when one of them fails.", "quantifier": "every sample, options and random outcome", "why_tests_cant": "all inputs", "anchors": ["mlpaper/mlpaper.py:get_mean_and_EB", "mlpaper/mlpaper.py:get_test", "mlpaper/mlpaper.py:get_mean_EB_test"]}
{"id": "C50", "title": "Reported mean respects the limits and the error bar is never wider than trivial", "statement": "For finite data within [lower, upper], get_mean_and_EB returns the exact sample mean, which lies in [lower, upper], and an error bar in [min_EB, max(upper-mean, mean-lower)].", "quantifier": "every sample, limits, method", "why_tests_cant": "all samples", "anchors": ["mlpaper/mlpaper.py:get_mean_and_EB", "mlpaper/mlpaper.py:clip_EB"]}
{"id": "C51", "title": "loss_summary_table cells", "statement": "Every cell of loss_summary_table is (mean loss, error, p) with the mean being the plain average of that method's column whatever pairwise_CI is; the p-value is NaN exactly for the reference method and otherwise the test on loss - loss_ref; with pairwise_CI the error is that of the differences and NaN for the reference.", "quantifier": "every loss table, reference and option", "why_tests_cant": "all tables", "anchors": ["mlpaper/mlpaper.py:loss_summary_table"]}
{"id": "C52", "title": "loss_summary_table rejects cheating and otherwise succeeds on finite losses", "statement": "A NaN loss or a loss outside its metric's limits raises AssertionError; with all losses finite and within limits (and at least one row) the table is produced without any exception for methods 't' and 'boot' and 'bernstein'; two methods with the same infinite loss on the same row are rejected when compared.", "quantifier": "every loss table and limits", "why_tests_cant": "all tables", "anchors": ["mlpaper/mlpaper.py:loss_summary_table"]}
{"id": "C53", "title": "Row order does not matter", "statement": "Permuting the rows (data points) of the loss table leaves every cell of loss_summary_table unchanged for the deterministic methods 't' and 'bernstein', and for 'boot' when the bootstrap counts are permuted along.", "quantifier": "every table and permutation", "why_tests_cant": "all permutations", "anchors": ["mlpaper/mlpaper.py:loss_summary_table"]}
{"id": "C54", "title": "one_hot is the one-hot encoding", "statement": "one_hot(y, n) has len(y) rows of n Booleans with True exactly at column y[i]; it raises AssertionError exactly when n < 1 or some label is outside [0, n) or the dtype is not a signed integer.", "quantifier": "every label vector and n", "why_tests_cant": "all vectors", "anchors": ["mlpaper/util.py:one_hot"]}
{"id": "C55", "title": "normalize makes each row a distribution and nothing else", "statement": "For finite log-probabilities (more generally, a row with at least one finite entry and no +inf or NaN) normalize returns rows whose exponentials sum to 1, keeps all differences between entries of a row (hence the ranking), is idempotent and is invariant to adding a constant to a row; a row of all -inf becomes NaN.", "quantifier": "every matrix with at least one column", "why_tests_cant": "all real matrices", "anchors": ["mlpaper/util.py:normalize"]}
{"id": "C56", "title": "epsilon_noise preserves order", "statement": "For finite x, every outcome of epsilon_noise keeps strict order: x_i < x_j implies out_i < out_j, and each entry moves by at most half the smallest gap and at most max_epsilon/2.", "quantifier": "every finite vector and every uniform draw in [0,1)", "why_tests_cant": "all random outcomes", "anchors": ["mlpaper/util.py:epsilon_noise"]}
{"id": "C57", "title": "unique_take_last keeps the last of each run", "statement": "For sorted xp, unique_take_last returns the strictly increasing list of distinct xp values, each paired with the yp of its last occurrence; unsorted input raises AssertionError.", "quantifier": "every sorted list", "why_tests_cant": "all lists", "anchors": ["mlpaper/util.py:unique_take_last"]}
{"id": "C58", "title": "cummax_strict is the least strictly increasing majorant", "statement": "cummax_strict returns a strictly increasing sequence that is pointwise >= x and pointwise <= every strictly increasing sequence above x; a strictly increasing x is unchanged.", "quantifier": "every list over any discrete order of floats with a successor", "why_tests_cant": "all lists and any float grid", "anchors": ["mlpaper/util.py:cummax_strict"]}
{"id": "C59", "title": "eval_step_func evaluates the right-continuous step function", "statement": "For distinct step points, eval_step_func returns at each grid point the yp of the largest step point <= it (ival if there is none); without ival a grid point before the first step raises AssertionError (IndexError when there are no steps); duplicate step points raise AssertionError; the order of the step points is irrelevant.", "quantifier": "every step list and grid", "why_tests_cant": "all lists", "anchors": ["mlpaper/util.py:eval_step_func"]}
{"id": "C60", "title": "Interpolation stays between neighbours and hits the points", "statement": "interp1d returns, for kind 'previous', the value at the last curve point at or before each grid point; for kind 'linear' it passes through the points and lies between the two neighbouring values. A grid point before the curve raises (AssertionError for 'previous', ValueError for 'linear'); one beyond the end raises ValueError for 'linear' but silently gets the last value for 'previous'. Kind 'next' raises NotImplementedError, a malformed curve AssertionError.", "quantifier": "every sorted curve of at least two points and grid", "why_tests_cant": "all curves", "anchors": ["mlpaper/util.py:_interp1d"]}
{"id": "C61", "title": "area is the integral of the interpolated curve", "statement": "area with kind 'previous' is the sum of left value times width ignoring zero-width pieces, with kind 'linear' the trapezoid sum; it is additive under splitting the curve, unchanged by inserting points on the interpolated curve, scales linearly in y, and lies between min(y) and max(y) times the width; other kinds raise NotImplementedError.", "quantifier": "every sorted curve of at least two points", "why_tests_cant": "all curves", "anchors": ["mlpaper/util.py:area"]}
{"id": "C62", "title": "clip_chk clips and only tolerates negligible clipping", "statement": "clip_chk(a, lo, hi) returns min(max(a, lo), hi) entrywise and raises AssertionError exactly when some entry is changed by the clip without being close to a limit.", "quantifier": "every array and limits lo <= hi", "why_tests_cant": "all values", "anchors": ["mlpaper/util.py:clip_chk"]}
{"id": "C63", "title": "Curve counts are threshold counts", "statement": "The i-th true/false positive count of the binary curve is the total weight of positive/negative samples with score >= the i-th threshold; thresholds are +inf followed by the distinct scores in strictly decreasing order.", "quantifier": "every label vector with both classes, finite scores and positive weights", "why_tests_cant": "all inputs incl. ties", "anchors": ["mlpaper/perf_curves.py:_binary_clf_curve"]}
{"id": "C64", "title": "Curves are monotone with correct end points and no internal assertion fails", "statement": "For every non-empty input with finite scores and positive finite weights (or none), roc_curve, recall_precision_curve and prg_curve return without exception; ROC starts at (0,0), ends at (1,1) and is monotone in both coordinates; recall is monotone from 0 to 1.", "quantifier": "every input incl. single class", "why_tests_cant": "all inputs", "anchors": ["mlpaper/perf_curves.py:_binary_clf_curve", "mlpaper/perf_curves.py:roc_curve", "mlpaper/perf_curves.py:recall_precision_curve", "mlpaper/perf_curves.py:prg_curve"]}
{"id": "C65", "title": "Curves do not depend on sample order", "statement": "Permuting the samples (labels, scores and weight columns together) leaves every curve and threshold list unchanged.", "quantifier": "every permutation", "why_tests_cant": "all permutations incl. ties", "anchors": ["mlpaper/perf_curves.py:_binary_clf_curve"]}
{"id": "C66", "title": "Curves depend on scores only through their ranking", "statement": "Applying any strictly increasing function to the scores leaves the curves unchanged and maps the finite thresholds through the function.", "quantifier": "every strictly increasing function", "why_tests_cant": "all functions", "anchors": ["mlpaper/perf_curves.py:roc_curve", "mlpaper/perf_curves.py:recall_precision_curve", "mlpaper/perf_curves.py:prg_curve"]}
{"id": "C67", "title": "Integer weights are replication and scale does not matter", "statement": "Curves with positive integer sample weights equal the unweighted curves of the data set in which each sample is repeated weight-many times; multiplying all weights by a positive constant leaves the ROC, PR and PRG curves unchanged; each row of the weight matrix is processed independently.", "quantifier": "every data set and weight matrix", "why_tests_cant": "all weights", "anchors": ["mlpaper/perf_curves.py:_binary_clf_curve"]}
{"id": "C68", "title": "ROC area is the Mann-Whitney probability", "statement": "With both classes present, the area under roc_curve equals the (weighted) fraction of (positive, negative) pairs ranked correctly plus half the fraction of ties.", "quantifier": "every data set with both classes", "why_tests_cant": "all data sets incl. ties", "anchors": ["mlpaper/perf_curves.py:roc_curve", "mlpaper/util.py:area"]}
{"id": "C69", "title": "ROC area is in [0,1] and reverses with the scores", "statement": "AUC is in [0,1]; negating the scores or flipping the labels gives 1-AUC; constant scores give 1/2; perfectly separating scores give 1.", "quantifier": "every data set", "why_tests_cant": "all data sets", "anchors": ["mlpaper/perf_curves.py:roc_curve", "mlpaper/util.py:area"]}
{"id": "C70", "title": "Single-class data gives chance ROC", "statement": "If only one class is present, the pseudo points make the ROC curve the diagonal with area 1/2, the precision constant (1/(1+1e-10) for all-positive and 1e-10/(1+1e-10) for all-negative).", "quantifier": "every single-class data set", "why_tests_cant": "all data sets", "anchors": ["mlpaper/perf_curves.py:_add_pseudo_points"]}
{"id": "C71", "title": "Precision is a proportion and ends at the prevalence", "statement": "All precision values are in [0,1], the last one is the (weighted) share of positives, the first equals the second, and the area under the curve is in [0,1].", "quantifier": "every data set", "why_tests_cant": "all data sets", "anchors": ["mlpaper/perf_curves.py:recall_precision_curve"]}
{"id": "C72", "title": "Precision-recall-gain matches its definition", "statement": "Where recall is at least the prevalence, recall gain and precision gain equal (v-pi)/((1-pi) v) of recall and precision; recall gain is clipped at 0 elsewhere, is monotone from 0 to 1; precision gain is <= 1 and ends at 0.", "quantifier": "every data set", "why_tests_cant": "all data sets", "anchors": ["mlpaper/perf_curves.py:prg_curve"]}
{"id": "C73", "title": "PRG area can be minus infinity", "statement": "The area under prg_curve is never NaN, is <= 1, and is -inf exactly when some group of scores above every positive contains only negatives and the recall gain is positive at the first threshold that has a positive.", "quantifier": "every data set", "why_tests_cant": "-inf arises only for specific rankings", "anchors": ["mlpaper/perf_curves.py:prg_curve", "mlpaper/util.py:area"]}
{"id": "C74", "title": "hard_loss takes a Bayes action and scores it", "statement": "hard_loss returns loss_mat[y, a] where a is the first action minimising expected loss under exp(log_pred_prob); with the default matrix this is 0 when the true label is the first most probable label and 1 otherwise; scores are in the range of the matrix.", "quantifier": "every label vector, prediction and loss matrix", "why_tests_cant": "all inputs incl. ties", "anchors": ["mlpaper/classification.py:hard_loss", "mlpaper/classification.py:hard_loss_decision"]}
{"id": "C75", "title": "Log loss is non-negative and proper", "statement": "For normalised predictions log_loss >= 0, it is 0 exactly at probability 1, and its expectation under the true distribution is minimised by predicting the true distribution.", "quantifier": "every distribution pair", "why_tests_cant": "all distributions", "anchors": ["mlpaper/classification.py:log_loss"]}
{"id": "C76", "title": "Brier loss is calibrated to [0, ...] and proper", "statement": "Rescaled brier_loss is 0 for a perfect prediction and 1 for the uniform one, lies in [0, 2n/(n-1)], and its expectation is minimised uniquely by the true distribution.", "quantifier": "every distribution and number of labels", "why_tests_cant": "all distributions", "anchors": ["mlpaper/classification.py:brier_loss"]}
{"id": "C77", "title": "Spherical loss is calibrated and proper", "statement": "Rescaled spherical_loss is 0 for a perfect and 1 for the uniform prediction, lies in [0, 1/(1-1/sqrt n)], does not change when the row is shifted by a constant, and its expectation is minimised by the true distribution.", "quantifier": "every distribution and number of labels", "why_tests_cant": "all distributions", "anchors": ["mlpaper/classification.py:spherical_loss"]}
{"id": "C78", "title": "Unnormalised predictions cannot cheat", "statement": "loss_table without assume_normalized gives the same table when any constant is added to any row of any method's log-probabilities; NaN predictions raise AssertionError.", "quantifier": "every prediction table and offset", "why_tests_cant": "all offsets", "anchors": ["mlpaper/classification.py:loss_table", "mlpaper/util.py:normalize"]}
{"id": "C79", "title": "loss_table applies every loss to every method", "statement": "Each column (metric, method) of loss_table is that metric applied to y and that method's (normalised) predictions only; columns are the full product of metrics and methods.", "quantifier": "every table, any loss functions", "why_tests_cant": "all tables", "anchors": ["mlpaper/classification.py:loss_table"]}
{"id": "C80", "title": "JustNoise predicts smoothed label frequencies", "statement": "The classification JustNoise predicts, for every test point, probabilities (count_k + pseudo)/(n + K*pseudo) that sum to 1; with pseudo_count=0 it minimises the training log loss among constant predictions (these are the entries of JustNoise in the table of get_pred_log_prob when there is no floor); fitting Boolean labels raises AssertionError although get_pred_log_prob accepts them.", "quantifier": "every label vector and pseudo count", "why_tests_cant": "all vectors", "anchors": ["mlpaper/classification.py:JustNoise", "mlpaper/util.py:one_hot", "mlpaper/classification.py:get_pred_log_prob"]}
{"id": "C81", "title": "Prediction tables are normalised; the floor holds only up to the normaliser", "statement": "Every row of get_pred_log_prob is normalised; every entry is >= min_log_prob minus the log of the row's floored total (at most log(1 + n_labels*exp(min_log_prob)) for normalised inputs), and the documented floor min_log_prob itself can be violated.", "quantifier": "every prediction matrix and floor", "why_tests_cant": "all matrices", "anchors": ["mlpaper/classification.py:get_pred_log_prob", "mlpaper/util.py:normalize"]}
{"id": "C82", "title": "curve_boot output is coherent", "statement": "curve_boot's estimate is the area of the unweighted curve; EB >= 0; p in [0,1]; the lower envelope is <= the upper envelope at every grid point; for ROC on a [0,1] grid all envelope values are in [0,1]; with the same predictions as reference p = 1 and the pairwise EB is 0.", "quantifier": "every data set and every bootstrap outcome", "why_tests_cant": "all random outcomes", "anchors": ["mlpaper/classification.py:curve_boot", "mlpaper/classification.py:check_curve"]}
{"id": "C83", "title": "curve_summary_table marks the reference", "statement": "In curve_summary_table the p-value is NaN exactly for the reference method, with pairwise_CI the error is also NaN exactly there, and each other cell is the curve_boot result of that method and curve against the reference; curve_dump has exactly one entry per (method, curve).", "quantifier": "every table, curves and random outcomes", "why_tests_cant": "all tables", "anchors": ["mlpaper/classification.py:curve_summary_table"]}
{"id": "C84", "title": "summary_table is loss summary plus curve summary", "statement": "summary_table has the loss metrics' columns from loss_summary_table of loss_table followed by the curve metrics' columns from curve_summary_table, over the same methods, without mixing.", "quantifier": "every input", "why_tests_cant": "all inputs", "anchors": ["mlpaper/classification.py:summary_table"]}
{"id": "C85", "title": "Regression losses", "statement": "square_loss is the square of abs_loss, both are >= 0 and 0 exactly at a perfect mean; log_loss equals log(std)+log(2 pi)/2+(y-mu)^2/(2 std^2); all three raise exactly on empty, non-finite, mis-shaped or non-positive std input: an AssertionError, or a ValueError when the targets are not one-dimensional.", "quantifier": "every input", "why_tests_cant": "all inputs", "anchors": ["mlpaper/regression.py:square_loss", "mlpaper/regression.py:abs_loss", "mlpaper/regression.py:log_loss", "mlpaper/regression.py:shape_and_validate"]}
{"id": "C86", "title": "Gaussian log loss rewards calibrated predictions", "statement": "For fixed std log_loss is minimised at mu=y; for fixed residual r it is minimised over std at std=|r|; averaged over a sample it is minimised by the sample mean and (ddof=0) standard deviation, which is what JustNoise predicts.", "quantifier": "every sample and prediction", "why_tests_cant": "all reals", "anchors": ["mlpaper/regression.py:log_loss", "mlpaper/regression.py:JustNoise"]}
{"id": "C87", "title": "Regression JustNoise", "statement": "JustNoise.fit/predict returns the training mean and population standard deviation repeated n_test times, requires at least two targets, and gives std 0 exactly for constant targets, which the losses then reject unless min_std > 0.", "quantifier": "every target vector", "why_tests_cant": "all vectors", "anchors": ["mlpaper/regression.py:JustNoise", "mlpaper/regression.py:shape_and_validate", "mlpaper/regression.py:get_gauss_pred"]}
{"id": "C88", "title": "get_gauss_pred floors std and falls back to unit std", "statement": "Every std in the prediction table is >= min_std and equals the method's own std where that is larger; a method whose predict does not accept return_std gets std 1 (floored); means are passed through.", "quantifier": "every method and floor", "why_tests_cant": "all methods", "anchors": ["mlpaper/regression.py:get_gauss_pred"]}
{"id": "C89", "title": "Regression loss_table applies every loss to every method", "statement": "Each (metric, method) column is that loss applied to y and that method's mu and std only, for any loss functions; missing moments raise AssertionError.", "quantifier": "every table", "why_tests_cant": "all tables", "anchors": ["mlpaper/regression.py:loss_table"]}
{"id": "C90", "title": "Checkpointed runs give the same predictions after any crash", "statement": "With a checkpoint store and methods whose fit/predict outcome is a function of (method, data), running get_pred_log_prob or get_gauss_pred after any number of earlier runs that crashed at any point (between train/predict calls) returns the same table as a run without checkpoints, and trains only what is missing.", "quantifier": "every history of crashed and completed runs", "why_tests_cant": "crash points and histories are unbounded", "anchors": ["mlpaper/classification.py:get_pred_log_prob", "mlpaper/regression.py:get_gauss_pred"]}
{"id": "C91", "title": "just_benchmark is the composition of its stages", "statement": "The classification and regression just_benchmark return summary tables whose rows are exactly the given methods and whose metrics are exactly the given losses (and curves); reordering test points leaves the deterministic summaries unchanged.", "quantifier": "every input", "why_tests_cant": "all inputs", "anchors": ["mlpaper/classification.py:just_benchmark", "mlpaper/regression.py:just_benchmark"]}
{"id": "C92", "title": "Certain classifiers break just_benchmark unless a floor is set", "statement": "With the default min_pred_log_prob=-inf, classification.just_benchmark with any of the package's curves never returns a table if some method gives label 1 probability exactly zero on some test point (even a perfect classifier); with any finite negative min_pred_log_prob the standard benchmark returns a table whenever all predicted log-probabilities are numbers or -inf.", "quantifier": "all training and test data, all methods and reference methods, all losses and limits, all bootstrap draws, any test point with a zero; any finite floor below 0", "why_tests_cant": "The failure comes from composing the floor, normalisation and the finiteness check of the curves for a prediction of exactly 0; tests with smooth classifiers never produce it, and no finite set of tests shows that a finite floor is always enough.", "anchors": ["mlpaper/classification.py:741-828", "mlpaper/classification.py:730-737", "mlpaper/classification.py:363-383", "mlpaper/perf_curves.py:86-90"]}
{"id": "C93", "title": "Bernstein error bars and tests keep their promise for any bounded distribution", "statement": "If the data points are independent random numbers within the limits with a common mean (identically distributed or not), bernstein_EB and get_mean_and_EB with method 'bernstein' return intervals that contain the true mean with probability at least the confidence, for every sample size, with no normality assumption; and if that mean is 0, the p-value of bernstein_test is at most alpha with probability at most alpha, for every alpha.", "quantifier": "every sample size, all distributions on the interval, every confidence in (0,1), every significance level", "why_tests_cant": "A statement about all distributions; simulation checks one distribution and sample size up to sampling noise.", "anchors": ["mlpaper/mlpaper.py:bernstein_EB", "mlpaper/mlpaper.py:bernstein_test", "mlpaper/mlpaper.py:get_mean_and_EB"]}
{"id": "C94", "title": "The Bernstein loss table is statistically valid", "statement": "For a loss table whose rows are independent with losses within the limits of the metric, loss_summary_table with method_EB='bernstein' shows for a method a mean and error bar that contain its true expected loss with probability at least the confidence; with pairwise_CI the difference of the means and the bar contain the true difference of expected losses; and a method with the same expected loss as the reference gets a p-value of at most alpha with probability at most alpha.", "quantifier": "every number of rows, every joint distribution of the losses of the two methods in a row, all other columns of the table, both settings of pairwise_CI", "why_tests_cant": "A statement about all distributions of tables.", "anchors": ["mlpaper/mlpaper.py:loss_summary_table"]}
{"id": "C95", "title": "t intervals and t tests are exact for normal data", "statement": "For at least two independent normal data points with common mean and positive variance, the interval of t_EB (and of get_mean_and_EB with method 't' and no limits) contains the true mean with probability exactly the confidence, and if the mean is 0 the p-value of t_test is uniform: at most alpha with probability exactly alpha.", "quantifier": "every sample size from 2, every mean and variance, every confidence and significance level", "why_tests_cant": "An exact statement about a continuous distribution of inputs; a simulation can only bound the error up to noise, for one sample size.", "anchors": ["mlpaper/mlpaper.py:t_EB", "mlpaper/mlpaper.py:t_test", "mlpaper/mlpaper.py:get_mean_and_EB"]}
{"id": "C96", "title": "The default loss table is exact for normal losses", "statement": "For a metric without limits, loss_summary_table with the default method 't' shows for a method with independent normal losses a mean and error bar that contain its expected loss with probability exactly the confidence; with pairwise_CI and normal differences to the reference the difference of the means and the bar contain the true difference with exactly that probability; and if the differences have mean 0 the p-value in the table is uniform.", "quantifier": "every number of rows from 2, every mean and variance, any dependence between the two methods, all other columns, both settings of pairwise_CI", "why_tests_cant": "An exact statement about a distribution of tables.", "anchors": ["mlpaper/mlpaper.py:loss_summary_table"]}
{"id": "C97", "title": "Random splits are fair", "statement": "If every permutation is equally likely, rand_subset returns every arrangement of ceil(frac*n) of n different elements with the same probability, rand_mask every mask with ceil(frac*n) times True with probability 1/(n choose ceil(frac*n)), random_split_series makes every set of ceil(frac*u) of the u distinct values the training values with the same probability, and each row is a training row with probability exactly ceil(frac*u)/u however often its value is repeated (ceil(frac*n)/n with assume_unique).", "quantifier": "every series, every fraction in [0,1], every number of distinct values", "why_tests_cant": "A statement about all n! permutations; a test can only estimate frequencies for one small series.", "anchors": ["mlpaper/data_splitter.py:rand_subset", "mlpaper/data_splitter.py:rand_mask", "mlpaper/data_splitter.py:random_split_series"]}
{"id": "C98", "title": "Bootstrap resampling is unbiased and has the spread of the mean", "statement": "Over the N^N equally likely ways to draw N points with replacement, the weights of boot_weights have expected value 1, variance 1-1/N and covariance -1/N; the resampled mean has the sample mean as expected value and the sample variance over N as variance; and the mean square of boot_EB with one replicate is exactly the squared standard error (divisor N).", "quantifier": "every data set of at least one (boot_EB: two) points, every confidence in (0,1)", "why_tests_cant": "An identity over N^N draws; a test sees a handful of random draws and noise of the size of the effect.", "anchors": ["mlpaper/boot_util.py:boot_weights", "mlpaper/mlpaper.py:boot_EB", "mlpaper/mlpaper.py:_boot_EB_and_test"]}
{"id": "C99", "title": "The LaTeX text is a well formed table with every value in its place", "statement": "Whenever just_format_it(use_tex=True) returns, the text is a booktabs tabular whose alignment has l and then Sr for each metric; it has one header line and one line for each method in order; every line ends in \\\\ and has exactly as many fields as alignment letters; the fields are the headers, or the method name followed by its estimate and p-value for each metric in column order; and a scale in a header is written $\\times 10^{s}$.", "quantifier": "every table, every option, every unit dictionary (names without &)", "why_tests_cant": "The number of fields and of alignment letters must agree for every number of metrics and methods; a test looks at a few tables.", "anchors": ["mlpaper/sciprint.py:table_to_latex", "mlpaper/sciprint.py:just_format_it", "mlpaper/sciprint.py:adjust_headers"]}
{"id": "C100", "title": "The plain text table has fixed columns and aligned decimal points", "statement": "Whenever just_format_it(use_tex=False) returns, there are column positions, the same for all lines, such that cutting a line there gives the headers, or the method name, estimates and p-values in order; all lines have the same length; neighbouring columns are separated by a blank; and the units digits of the estimates of a column are in the same position of every line. The whole text is determined: method names padded to the longest, then for each column one blank and the header or cell to the right of a room that just holds the header and the longest cell with its leading blank; no blank at the end of a line.", "quantifier": "every table, every option; for alignment, cells of at most 49 characters", "why_tests_cant": "Padding, justification and column widths depend on all cells of a column at once; a test fixes a few tables.", "anchors": ["mlpaper/sciprint.py:table_to_string", "mlpaper/sciprint.py:just_format_it", "mlpaper/sciprint.py:pad_num_str"]}
{"id": "C101", "title": "Long cells lose digits without notice", "statement": "A cell of at most 49 characters (a method name of at most 50) is exported unchanged, and a longer one is cut to its first 46 (47) characters and three dots, also in LaTeX; so with shift_mod=None a small mean can be exported without any of its digits.", "quantifier": "every cell and method name without control characters", "why_tests_cant": "The cut is a default option of pandas that no realistic test table reaches.", "anchors": ["mlpaper/sciprint.py:table_to_latex", "mlpaper/sciprint.py:table_to_string"]}
{"id": "C102", "title": "Infinite losses make impossible labels attractive", "statement": "With a loss matrix of numbers and plus infinity, hard_loss_decision takes for every row of predictions the first action that has an infinite loss for a label predicted with probability exactly 0, if there is one, even if that action is not optimal; otherwise the first action of least expected loss among those without an infinite loss, or action 0 if all have one. hard_loss returns the loss of that action for the true label. A loss matrix without actions or without a row for each label raises ValueError, even without predictions.", "quantifier": "every matrix of log-probabilities and every loss matrix of numbers and plus infinity with at least one action", "why_tests_cant": "0 * inf is NaN and argmin stops at NaN: it needs a zero probability exactly where the loss is infinite", "anchors": ["mlpaper/classification.py:hard_loss_decision", "mlpaper/classification.py:hard_loss"]}
{"id": "C103", "title": "A mean of more than 28 digits is rounded and its error overstated", "statement": "When print_estimate prints an unclipped finite mu of 28+d significant digits (d >= 1) with a finite EB of the same quantum, the number before '(' is mu*10^shift rounded half-even to 28 digits, and a reader of the digits in parentheses gets 10^j times EB*10^shift, where j is the number of decimal places lost (d, or d+1 if the rounding carries).", "quantifier": "every finite mu of more than 28 digits, EB and shift that are accepted", "why_tests_cant": "unbounded coefficients; a test has to think of the precision of the decimal context", "anchors": ["mlpaper/sciprint.py:print_estimate", "mlpaper/sciprint.py:digit_str"]}
{"id": "C104", "title": "Curves keep their shape in floating point arithmetic", "statement": "Whatever rounding does in the running sums, differences and quotients, and in whatever order np.sum adds, a curve that is returned has the right shape: every ROC row goes from exactly (0,0) to exactly (1,1) and never down; recall goes from exactly 0 to exactly 1 and never down and every precision is in [0,1]; recall gain goes from exactly 0 to exactly 1 and never down and precision gain is at most 1 wherever recall gain is not 0. ROC and PRG fail together, only with an AssertionError, and only with weights.", "quantifier": "every rounding that is monotone, symmetric, idempotent and keeps 0 and 1; every summation order; all labels, finite scores and positive weights", "why_tests_cant": "rounding errors depend on the data; no set of examples covers all of them", "anchors": ["mlpaper/perf_curves.py:roc_curve", "mlpaper/perf_curves.py:recall_precision_curve", "mlpaper/perf_curves.py:prg_curve", "mlpaper/perf_curves.py:_binary_clf_curve"]}
{"id": "C105", "title": "When curves succeed in floating point arithmetic", "statement": "Without weights no curve fails for up to 2^53 samples. With weights, n samples and unit roundoff u with n*u <= 1e-6, ROC and PRG succeed if 9*n*u*(total weight) <= 1e-8 + 1e-5*(negative weight), and recall-precision if in addition 6*n*u*(total weight) < (negative weight). With the weights drawn by curve_boot (count of draws, at least 1e-10) in double precision, ROC and PRG succeed for every outcome with up to 3000 samples and recall-precision with up to 300. Outside these bounds it can fail: weights 1e16 and 1 make roc_curve raise AssertionError.", "quantifier": "every rounding with relative error at most u, every summation order, all labels, finite scores and positive weights within the bounds, every outcome of the bootstrap", "why_tests_cant": "whether an assertion about closeness can fail is a question about the worst rounding errors over all data", "anchors": ["mlpaper/perf_curves.py:_binary_clf_curve", "mlpaper/perf_curves.py:recall_precision_curve", "mlpaper/classification.py:curve_boot", "mlpaper/util.py:cummax_strict"]}
{"id": "C106", "title": "Accuracy of curves in floating point arithmetic", "statement": "Without weights every point of the ROC and recall-precision curve is the correctly rounded exact rate. With weights, n samples of both classes and unit roundoff u, if 12*n*u*(total weight) <= (negative weight), every computed true positive rate is within 6*n*u of the exact one and every false positive rate within 25*n*u*(total/negative weight).", "quantifier": "every rounding with relative error at most u, every summation order, all labels, finite scores and positive weights", "why_tests_cant": "a worst case over all data and all rounding errors", "anchors": ["mlpaper/perf_curves.py:roc_curve", "mlpaper/perf_curves.py:recall_precision_curve", "mlpaper/perf_curves.py:_binary_clf_curve"]}
{"id": "C107", "title": "Bootstrap intervals and p-values in floating point arithmetic", "statement": "With every operation of boot_util rounded, percentile succeeds for every sample without NaN and confidence in (0,1), its ends are sample entries, lower end from the lower half and upper end from the upper half, higher confidence gives a containing interval, error_bar never fails and is >= 0, basic is the reflected interval, and significance is in [0,1]. The positions used differ from the exact ones by at most 6u(n-1) before rounding to integers, so with 1000 replicates and confidence 0.95 the interval is exactly that of exact arithmetic. If the reference lies strictly outside the computed interval the computed p-value is below the computed 1-confidence as long as 25nu <= 1-confidence.", "quantifier": "every rounding that is monotone, symmetric, idempotent, keeps 0 and 1 and multiples of 1/2 up to m, with relative error at most u where accuracy matters; all samples of up to m entries, infinities included; all confidence levels; all references", "why_tests_cant": "the positions are computed as floor and ceil of rounded numbers; whether they can leave the sample or cross is a question about all sizes and levels", "anchors": ["mlpaper/boot_util.py:confidence_to_percentiles", "mlpaper/boot_util.py:percentile", "mlpaper/boot_util.py:basic", "mlpaper/boot_util.py:error_bar", "mlpaper/boot_util.py:significance"]}
{"id": "C108", "title": "Tables with pairwise_CI never fail in floating point arithmetic", "statement": "With every operation of mlpaper.py rounded, get_mean_and_EB, get_test, get_mean_EB_test succeed for finite data within valid limits, and loss_summary_table with pairwise_CI returns a table for finite losses within valid limits. No assertion about signs, ranges, clipping or closeness can be tripped by rounding. Each cell holds the computed mean, an error bar that is not NaN and not negative (at most twice the rounded range if the limits are finite) and a p-value in [0,1]; the reference has NaN for both. The mean shown can exceed the upper limit by a rounding error.", "quantifier": "every library whose rounding is monotone, odd, idempotent, keeps 0, 1 and doubling, with relative error at most u; np.sum in any order of additions; sqrt, log, exp, np.roots, ss.t only with the right signs and ranges; up to 1e-6/u rows (nine thousand million in double precision); all finite losses, all limits, all confidence levels in (0,1), all three methods, all bootstrap draws", "why_tests_cant": "the code asserts properties that hold in exact arithmetic; whether rounding can violate them depends on all data, sizes, limits and draws", "anchors": ["mlpaper/mlpaper.py:loss_summary_table", "mlpaper/mlpaper.py:get_mean_EB_test", "mlpaper/mlpaper.py:get_mean_and_EB", "mlpaper/mlpaper.py:get_test", "mlpaper/mlpaper.py:clip_EB", "mlpaper/util.py:clip_chk"]}
{"id": "C109", "title": "Tables without pairwise_CI fail exactly if a computed mean leaves its limits", "statement": "Without pairwise_CI, for finite losses within valid limits, loss_summary_table returns a table if every computed mean lies within the limits of its metric, and raises AssertionError (mu_ == mu) if one does not. Three losses of 0.1 with limits (0, 0.1) are such a case. If the limits are infinite or their multiples up to the number of rows are floats (such as 0, 1 and other integers), the computed mean never leaves them and the table is always produced.", "quantifier": "every library whose rounding is monotone, odd, idempotent, keeps 0, 1 and doubling, with relative error at most u; np.sum in any order of additions; sqrt, log, exp, np.roots, ss.t only with the right signs and ranges; up to 1e-6/u rows (nine thousand million in double precision); all finite losses, all limits, all confidence levels in (0,1), all three methods, all bootstrap draws", "why_tests_cant": "the failure needs a rounding accident at a limit; that integer limits are safe is a statement about all data and orders of summation", "anchors": ["mlpaper/mlpaper.py:loss_summary_table", "mlpaper/mlpaper.py:get_mean_and_EB", "mlpaper/util.py:clip_chk"]}
{"id": "C110", "title": "The models with rounding extend the exact ones", "statement": "If rounding does nothing and the library is exact, the functions of perf_curves.py, boot_util.py and mlpaper.py with rounding are, for all arguments including exceptions, the functions of the exact model, up to the whole loss_summary_table.", "quantifier": "all arguments of all functions: any labels, scores, weights, samples, floats including inf and NaN, methods, limits, draws, reference distributions", "why_tests_cant": "equality of two models on all inputs", "anchors": ["mlpaper/mlpaper.py:loss_summary_table", "mlpaper/perf_curves.py:roc_curve", "mlpaper/perf_curves.py:recall_precision_curve", "mlpaper/perf_curves.py:prg_curve", "mlpaper/boot_util.py:significance", "mlpaper/boot_util.py:error_bar"]}
{"id": "C111", "title": "Accuracy of the mean column", "statement": "Whenever loss_summary_table returns a table, with or without pairwise_CI, the mean of n finite losses in a cell differs from their average by at most 2nu times the average of their absolute values, hence by at most 2nu max(|l|,|h|) for losses between l and h.", "quantifier": "every rounding with relative error at most u; every order in which np.sum adds; all tables, settings and draws; up to 1e-6/u rows", "why_tests_cant": "a bound on the rounding error for all data and all orders of summation", "anchors": ["mlpaper/mlpaper.py:loss_summary_table"]}
{"id": "C112", "title": "Which curves check_curve and curve_boot accept", "statement": "check_curve returns the curves unchanged exactly if x and y have the same shape with at least two points, every x is finite and each row nondecreasing, no y is NaN or +inf, and, given a grid, every row starts at or before its first point and ends at or after its last. Anything else is an AssertionError (IndexError for drawable curves and an empty grid). curve_boot, with any curve function, only returns a result if the curve of the data, the curves of all replicates and those of reference predictions pass this check.", "quantifier": "all curves with any number of rows and points and any floats including inf and NaN, all grids, all curve functions, labels, predictions, references and draws", "why_tests_cant": "an exact characterisation of accepted inputs, and a guarantee for curve functions written by users", "anchors": ["mlpaper/classification.py:check_curve", "mlpaper/classification.py:curve_boot"]}
{"id": "C113", "title": "The floating point model of areas, interpolation, curve_boot and curve_summary_table refines the exact one", "statement": "Without rounding (rounding function the identity, np.sum the exact sum) area, interp1d, curve_boot and curve_summary_table as modelled operation by operation in floating point return exactly what the exact model returns: the same values, and the same exception where one is raised.", "quantifier": "all curves, grids, kinds, labels, predictions, references, curve functions, tables, draws, and all floats including inf and NaN", "why_tests_cant": "an equation between two models for all inputs; it ties every theorem about the exact model to the one with rounding", "anchors": ["mlpaper/util.py:area", "mlpaper/util.py:interp1d", "mlpaper/classification.py:curve_boot", "mlpaper/classification.py:curve_summary_table"]}
{"id": "C114", "title": "Accuracy of areas and interpolation in floating point arithmetic", "statement": "check_curve, unique_take_last, eval_step_func and interp1d for every kind but linear return exactly the same with rounding as without: only comparisons of neighbouring values matter, and rounding a difference keeps its sign. For curves with n points, nondecreasing in x, area differs from the exact area by at most ((1+u)^(n+2) - 1) times the area under |y|, whatever the order of summation. Linear interpolation of values in [lo, hi] differs from the exact value by at most u max(|lo|,|hi|) + 6u(hi-lo), and is exact at points of the curve.", "quantifier": "all roundings with the properties of IEEE rounding and relative error u (at most 1/100 for interpolation), all summation orders, all curves with any number of points and rows, all grids within the range", "why_tests_cant": "an error bound for all inputs and all summation orders; tests compare a few with a tolerance", "anchors": ["mlpaper/util.py:area", "mlpaper/util.py:interp1d", "mlpaper/util.py:eval_step_func", "mlpaper/util.py:unique_take_last", "mlpaper/classification.py:check_curve"]}
{"id": "C115", "title": "curve_boot and curve_summary_table in floating point arithmetic", "statement": "In floating point arithmetic curve_boot returns the computed area of the curve of the data, an error bar and a p-value from the computed areas of the replicates and of the reference with the same weights, and for each grid point the curve's value with percentiles over the replicates. Whatever the curve function: p is in [0,1], the error bar of a finite estimate is not negative, the lower end of the envelope is at most the upper end, and a method compared with itself has p-value 1 and (paired) error bar 0. In double precision, with finite scores of label 1, it succeeds for every draw of the bootstrap and every summation order: for ROC curves of up to 3000 samples, precision-recall and (unpaired) precision-recall-gain curves of up to 300; areas and error bars of ROC and precision-recall curves are between 0 and 1+1e-12, values of curves and envelopes within 1e-15 of [0,1]. Then curve_summary_table succeeds too; its cells and its dump are those results, the p-value is NaN exactly for the reference.", "quantifier": "all IEEE-like roundings and summation orders, all labels, predictions, references, grids in [0,1], confidences in (0,1), all bootstrap draws, any number of methods and curves, sample sizes as stated", "why_tests_cant": "np.sum adds in an order of its own and the draws are random: an assertion that fails for some draw by rounding would not show in a test", "anchors": ["mlpaper/classification.py:curve_boot", "mlpaper/classification.py:curve_summary_table", "mlpaper/classification.py:check_curve", "mlpaper/perf_curves.py:roc_curve", "mlpaper/perf_curves.py:recall_precision_curve", "mlpaper/perf_curves.py:prg_curve"]}
{"id": "C116", "title": "Accuracy of the area under the curve in floating point arithmetic", "statement": "The computed area under the ROC curve (roc_curve, then area, as in curve_boot) is close to the probability that a positive sample scores higher than a negative one, ties counting half. Without weights the error is at most 6 n u, for recall-precision curves at most 8 n u, u being the unit roundoff. With weights it is at most 36 n u times the total weight over that of the negatives. In double precision curve_boot's AUC is within 6 n / 2^53 of the exact AUC for up to 2^40 samples, and the area of each bootstrap replicate that drew a negative sample is within 37 n^2 / 2^53 for up to 3000.", "quantifier": "all roundings with the properties of IEEE rounding and relative error u, all summation orders, all labels with both classes, all scores and positive weights, all draws", "why_tests_cant": "an error bound over all data sets and all summation orders through four roundings per point and a cumulative sum", "anchors": ["mlpaper/perf_curves.py:roc_curve", "mlpaper/perf_curves.py:recall_precision_curve", "mlpaper/util.py:area", "mlpaper/classification.py:curve_boot"]}
{"id": "C117", "title": "A bootstrap replicate measures the resampled data", "statement": "boot_weights replaces the count 0 by a small weight epsilon instead of leaving the sample out. The area under the ROC curve of each replicate is still within 2 n epsilon of the area under the ROC curve of the data set in which each sample is repeated as often as it was drawn. If nothing was drawn of one class, it is that of the data set in which every sample of this class occurs once, so both classes are always present. In double precision (epsilon 1e-10) the area of each replicate that drew a negative sample is within 3e-10 n + 37 n^2 / 2^53 of the exact AUC of the resampled data.", "quantifier": "all data sets with both classes, all draws, all epsilon > 0 with n epsilon at most 1; for doubles n up to 3000 and all summation orders", "why_tests_cant": "a relation between weighted and resampled data for all draws; one run draws a few of the n^n resamples", "anchors": ["mlpaper/boot_util.py:boot_weights", "mlpaper/perf_curves.py:roc_curve", "mlpaper/classification.py:curve_boot"]}
{"id": "C118", "title": "Every sound summary can be formatted", "statement": "just_format_it returns a text (TeX or plain) exactly when the table has at least one method and metric, shift_mod is None or at least 1, every cell can be converted by decimalize, no estimate is NaN, infinite estimates lie beyond a limit and, with shift_mod=None, no estimate within the limits has its last digit left of the units. In numbers: finite estimates, p-values NaN or in [0,1] and non-negative error bars always work with a shift modulus unless an estimate exceeds 10^26 error bars; with shift_mod=None formatting fails as soon as an error bar in use exceeds 99, or an estimate without one reaches 99999.5. The table computed by loss_summary_table with pairwise_CI from finite losses within the limits is therefore formatted, with a shift modulus of at least 1, for every outcome of the bootstrap, unless an estimate exceeds 10^26 times its positive error bar.", "quantifier": "every table, limits, units and options; every loss table, confidence, method and outcome of the draws; any float rounding", "why_tests_cant": "that no table of a kind ever raises is a statement about all tables; the thresholds 99 and 99999.5 are exact boundaries over infinitely many inputs", "anchors": ["mlpaper/sciprint.py:just_format_it", "mlpaper/sciprint.py:format_table", "mlpaper/sciprint.py:decimalize", "mlpaper/sciprint.py:find_shift", "mlpaper/mlpaper.py:loss_summary_table"]}
{"id": "C119", "title": "Losses and benchmarks in floating point arithmetic refine the exact ones", "statement": "The floating point versions of normalize, hard_loss_decision, hard_loss, brier_loss, spherical_loss, loss_table, get_pred_log_prob, the JustNoise references, summary_table and just_benchmark of classification, and of the losses, the reference and just_benchmark of regression, with every rounding, exponential, logarithm, square root, sum and inner product as a parameter, are the exact functions of the other properties when the parameters are exact.", "quantifier": "every input of every one of these functions, errors included", "why_tests_cant": "equality of two programs for all inputs", "anchors": ["mlpaper/classification.py:hard_loss", "mlpaper/classification.py:brier_loss", "mlpaper/classification.py:spherical_loss", "mlpaper/classification.py:loss_table", "mlpaper/classification.py:get_pred_log_prob", "mlpaper/classification.py:summary_table", "mlpaper/classification.py:just_benchmark", "mlpaper/regression.py:square_loss", "mlpaper/regression.py:abs_loss", "mlpaper/regression.py:log_loss", "mlpaper/regression.py:just_benchmark", "mlpaper/util.py:normalize"]}
{"id": "C120", "title": "Ranges of the losses survive rounding", "statement": "In floating point arithmetic: normalize never returns a positive log-probability, keeps impossible labels impossible and possible ones possible and keeps the order of the entries; for log-probabilities of at most 0 the Brier loss is a number between 0 and the number of labels (times the rounded factor n/(n-1) if rescaled), the spherical loss is between -1 and 0, or between 0 and the rounded 1/(1-1/sqrt(n)) if rescaled, the log loss is a non-negative number or +inf, the zero-one loss is exactly 0 or 1, and any hard loss is an unchanged entry of the loss matrix, of the first action whose computed expected loss is least, which is optimal up to the error of the inner products. Predictions that are certain of one label are left unchanged by normalize and have exactly the losses 0, 0, 0, 0 if right and 2 (2 times the rounded n/(n-1)), the rounded 1/(1-1/sqrt(n)), +inf and 1 if wrong.", "quantifier": "every label vector and table of log-probabilities of floats of any size; any monotone rounding, any order of the additions, any exp and log that are right at 0 and 1 and on the right side elsewhere; zero-one loss of certain predictions: any inner product with a relative error below 1, in double precision up to a million labels", "why_tests_cant": "a rounding error that makes a loss negative or a probability exceed 1 appears only for rare inputs among all floats", "anchors": ["mlpaper/util.py:normalize", "mlpaper/classification.py:hard_loss", "mlpaper/classification.py:hard_loss_decision", "mlpaper/classification.py:log_loss", "mlpaper/classification.py:brier_loss", "mlpaper/classification.py:spherical_loss"]}
{"id": "C121", "title": "Classification benchmark never fails in double precision", "statement": "In floating point arithmetic: JustNoise predicts logarithms of computed frequencies between 0 and 1, which are 0 exactly for a label that does not occur with pseudo count 0 and respect the order of the counts; get_pred_log_prob succeeds if the methods predict log-probabilities that are floats (probabilities need not sum to 1), its entries are at most 0 and all finite if the floor is; loss_table with the standard losses succeeds for any number of labels, with log losses that are +inf exactly where the method excludes the true label and otherwise numbers >= 0, and Brier, spherical and zero-one losses in their ranges; loss_summary_table succeeds on that table if no label is excluded and the limits cover the losses; and summary_table and just_benchmark with the standard losses and curves (two labels, up to 300 test points for precision-recall and precision-recall-gain curves, 3000 for ROC curves; no pairs with precision-recall-gain) return a table for every outcome of the bootstrap draws. The table has a row for each method and a column for each loss and curve; estimates of losses are numbers >= 0 (zero-one: <= 1), areas are not NaN and those of ROC and precision-recall curves within [0, 1 + 1e-12], error bars are >= 0 and p-values in [0, 1], and missing exactly for the reference.", "quantifier": "all data, estimators, methods, finite floors, covering limits, error bar methods, and all outcomes of the random draws", "why_tests_cant": "the functions contain some twenty assertions on computed values, any of which a rounding error could trip for rare inputs", "anchors": ["mlpaper/classification.py:just_benchmark", "mlpaper/classification.py:summary_table", "mlpaper/classification.py:get_pred_log_prob", "mlpaper/classification.py:loss_table", "mlpaper/classification.py:JustNoise", "mlpaper/mlpaper.py:loss_summary_table", "mlpaper/boot_util.py"]}
{"id": "C122", "title": "Regression losses and benchmark in floating point", "statement": "In floating point arithmetic the three regression losses accept and reject the same input as with exact numbers. Absolute and square losses are >= 0, 0 exactly for a perfect mean, correct up to one and three roundings, and the square loss is the rounded square of the absolute loss; in double precision the log loss is correct up to 2e-15 of the sizes of its three terms. A mean that is closer to its target never gets a larger computed loss, for all three losses. JustNoise computes the mean and a standard deviation that is 0 exactly if all targets equal the computed mean, so its predictions are accepted by the losses whenever two targets differ and rejected with AssertionError for equal targets whose multiples are floats; three targets of 0.1 are accepted only because of a rounding error. just_benchmark with the standard losses returns a table for every outcome of the draws (with and without pairwise error bars): one row for each method, columns MAE, MSE, NLL, estimates that are the computed means of the computed losses (not negative for MAE and MSE), error bars >= 0, p-values in [0, 1] and missing exactly for the reference.", "quantifier": "all libraries with correct rounding (double precision for the benchmark), all targets, predictions, methods, floors, covering limits, error bar methods, and all outcomes of the random draws; up to 1e9 test points", "why_tests_cant": "rounding errors depend on the data; tests compare with tolerances on a few inputs and cannot exclude that an assertion on computed values fails or that the order of two losses is reversed by rounding", "anchors": ["mlpaper/regression.py:square_loss", "mlpaper/regression.py:abs_loss", "mlpaper/regression.py:log_loss", "mlpaper/regression.py:JustNoise", "mlpaper/regression.py:just_benchmark", "mlpaper/mlpaper.py:loss_summary_table"]}
{"id": "C123", "title": "cummax_strict: copy and in-place operation", "statement": "cummax_strict with copy=True (the default) changes no existing array, whether it returns or raises, and returns a new array. With copy=False it allocates nothing, changes no array but its argument and returns that same array. Both return the same values and raise in the same cases (AssertionError only). After copy=False the argument has its old first entry and length and no entry is smaller, also if the call raised; for an argument without NaN it is left as it was exactly if it was strictly increasing, possibly followed by repeated +inf.", "quantifier": "all memory states, all arrays, both values of copy, any float grid", "why_tests_cant": "absence of side effects on all other arrays and the state after an exception are statements about all memories; a test looks at one array after one successful call", "anchors": ["mlpaper/util.py:cummax_strict"]}
{"id": "C124", "title": "Custom format strings for clipped estimates and p-values", "statement": "below_fmt and above_fmt of print_estimate and print_pval are used only if a value is clipped, and then the limit (in the shifted scale) is formatted with them; in all other cases the outcome does not depend on them, even if they are malformed. A format string made of text around one field {0:spec} or {:spec} gives exactly that text (doubled braces becoming single ones) around the formatted limit. Several fields {0:spec} format the limit in turn; mixing {0:..} and {:..} raises ValueError and a second {:..} raises IndexError. A lone brace raises ValueError, a field numbered above 0 IndexError, a named field KeyError. With the default strings the functions are those of C01-C13 and C03.", "quantifier": "all decimals, shifts, clip limits, mappings and format strings (text and fields; no conversions, attributes or nested fields)", "why_tests_cant": "all texts, including braces and LaTeX commands, and all numbers; tests use the default strings only", "anchors": ["mlpaper/sciprint.py:print_estimate", "mlpaper/sciprint.py:print_pval", "mlpaper/constants.py:GEN_FMT"]}
{"id": "C125", "title": "Accuracy of normalisation, classification losses and JustNoise in floating point", "statement": "If every operation, exp, log and sqrt has a relative error of at most u and n u <= 1/100 for n labels, then: normalize(p) shifts each finite entry x by the log s of the row's total probability with an error of at most u (|x - s| + 7 n + 2 |s|), keeps -inf, and the probabilities of the result sum to 1 up to u (10 n + 3 |s|); every Brier loss b (before rescaling) is computed up to n u (7 + 4 b) times the rescaling factor; every spherical loss up to u (10 n + 6 |l|), rescaled u (24 n + 7 |l|)/c, with l the log of the norm of the probabilities and c the scale; JustNoise predicts log f up to u (8 + 2 |log f|) for a label of smoothed frequency f > 0 and -inf for frequency 0. In double precision with up to 1000 labels and probabilities summing to something in [1/2, 2], all Brier and spherical losses are within 10^-11 of the exact ones.", "quantifier": "all numbers of samples and labels, all log-probabilities including -inf, all orders of summation, all libraries with relative error u; for the sum to one, entries up to 1/(100 u) in size; for the spherical loss, |l| up to 1/(50 u)", "why_tests_cant": "an error bound for all inputs; tests compare with a tolerance on random samples, where log-sum-exp and cancellation never hit the worst case", "anchors": ["mlpaper/util.py:normalize", "mlpaper/classification.py:brier_loss", "mlpaper/classification.py:spherical_loss", "mlpaper/classification.py:JustNoise"]}
{"id": "C126", "title": "Accuracy of the benchmark's losses in floating point", "statement": "If every operation, exp, log and sqrt has a relative error of at most u, then the estimates of NLL, Brier and sphere that loss_table followed by loss_summary_table, or just_benchmark, return for a method are the averages over the samples of the exact losses of the exactly normalised predictions (raised to min_pred_log_prob in just_benchmark), with a relative error of at most 2 N u plus an absolute error of at most u (88 B + 440 n) for the tables and u (352 B + 968 n) for just_benchmark, which normalises twice; N samples, n labels, log-probabilities of absolute value at most B. In double precision with up to 1000 labels, a million samples, log-probabilities up to 0 and a floor of at least -1000, the absolute part is below 2e-10.", "quantifier": "all estimators, data sets, numbers of samples and labels, methods, curves, orders of summation and libraries with relative error u, whenever the call returns", "why_tests_cant": "end-to-end error bound through two normalisations, exponentials, norms, rescaling and averages, for all predictions; tests compare a few random tables with a tolerance", "anchors": ["mlpaper/classification.py:just_benchmark", "mlpaper/classification.py:get_pred_log_prob", "mlpaper/classification.py:loss_table", "mlpaper/mlpaper.py:loss_summary_table"]}
{"id": "C127", "title": "Curves and their bootstrap neither overflow nor underflow", "statement": "With IEEE 754 double precision including its smallest and largest exponent (gradual underflow below 2^-1022, overflow from 2^1024 - 2^970 on), roc_curve, recall_precision_curve, prg_curve, the area under each, the bootstrap intervals, error bars and tests, curve_boot and curve_summary_table return exactly what they return if exponents have no limits, for any order of summation and whatever an operation that overflows returns. So all results about rounding of curves hold for real doubles, in particular curve_summary_table succeeds for up to 3000 samples. Inputs: up to 2^53 samples and replicates, scores up to 2^1022, bootstrap counts up to 2^60, a grid of multiples of 2^-400. The doubles are the numbers m 2^e with |m| < 2^53 and -1074 <= e <= 971; operations round to the nearest of them, in a tie to the one whose last bit is 0.", "quantifier": "all labels, scores, weights, tables, grids, draws and confidences in range, all roundings that agree with IEEE 754 wherever it does not overflow, all orders of summation", "why_tests_cant": "absence of overflow and of harmful underflow in every intermediate result, for all inputs; extreme scores, weights near 1e-10 and gains near minus infinity are not sampled by tests", "anchors": ["mlpaper/perf_curves.py", "mlpaper/util.py:area", "mlpaper/util.py:interp1d", "mlpaper/boot_util.py", "mlpaper/classification.py:curve_boot", "mlpaper/classification.py:curve_summary_table"]}
{"id": "C128", "title": "loss_summary_table survives underflow in double precision", "statement": "With every operation rounded to IEEE doubles including gradual underflow (results below 2^-1022 in magnitude are rounded to multiples of 2^-1074), get_mean_and_EB, get_test, get_mean_EB_test and loss_summary_table keep what C108 and C109 say for rounding without underflow: with pairwise_CI the table is produced for all finite losses within the limits; without it the table is produced if every computed mean is within the limits, in particular for integer limits, and otherwise the call ends in an AssertionError. Error bars are not NaN and not negative, p-values are in [0,1]. The squared deviations or the variance may underflow to 0: then the t test takes its branch for degenerate data and its assertion that the variance is at most 1e-100 holds. The limits are infinite or doubles, equal or at least 2^-985 apart. The computed mean differs from the average by at most 2n/2^53 times the average of the absolute values plus 2^-1022.", "quantifier": "all loss tables with up to nine thousand million rows, all limits as described, all double confidence levels in (0,1), all three methods, all bootstrap draws; np.sum in any order of additions; sqrt, log, exp, np.roots, ss.t only with the right signs and ranges", "why_tests_cant": "tests do not use losses whose squares underflow, and which assertion could be tripped by an underflow depends on all intermediate results", "anchors": ["mlpaper/mlpaper.py:loss_summary_table", "mlpaper/mlpaper.py:t_test", "mlpaper/mlpaper.py:bernstein_EB", "mlpaper/mlpaper.py:bernstein_test", "mlpaper/mlpaper.py:clip_EB", "mlpaper/util.py:clip_chk"]}
{"id": "C129", "title": "loss_summary_table does not overflow in double precision", "statement": "If the finite losses of a table are at most 2^200 (about 1.6e60) in absolute value and the limits are infinite or doubles of at most that size that are equal or at least 2^-200 apart, no elementary operation and no sum of loss_summary_table overflows: the outcome, table or exception, is the same whatever an operation that overflows would return. This includes tables with infinite or NaN losses. Consequently what C128 says for doubles without a largest exponent holds for IEEE doubles: with pairwise_CI the table is produced for all finite losses within the limits, with error bars that are not NaN and not negative and p-values in [0,1]; without it the table is produced if every computed mean is within the limits, in particular for integer limits, and otherwise the call ends in an AssertionError. The mean of doubles up to 2^900 differs from their average by at most 2n/2^53 times the average of the absolute values plus 2^-1022.", "quantifier": "all loss tables with up to nine thousand million rows and such losses and limits, all double confidence levels in (0,1), all three methods, with and without pairwise_CI, all bootstrap draws, all orders of summation, every behaviour on overflow; sqrt within a factor of two, 1/2 <= log x <= x for x >= 2, exp <= 1 for negative arguments, the roots of a quadratic with moderate coefficients at most 2^500, t quantiles at most 2^100", "why_tests_cant": "squares of losses and quotients by tiny standard deviations are the places where doubles overflow; tests use a few losses near 1 and cannot show that no intermediate result is too large for any table", "anchors": ["mlpaper/mlpaper.py:loss_summary_table", "mlpaper/mlpaper.py:t_test", "mlpaper/mlpaper.py:t_EB", "mlpaper/mlpaper.py:bernstein_EB", "mlpaper/mlpaper.py:bernstein_test", "mlpaper/mlpaper.py:_boot_EB_and_test", "mlpaper/mlpaper.py:clip_EB", "mlpaper/util.py:clip_chk"]}
{"id": "C130", "title": "t intervals and t tests are asymptotically valid for any distribution", "statement": "For data that are independent and have the same distribution with finite, nonzero variance, not necessarily normal, the probability that mean plus or minus t_EB contains the expected value tends to the confidence level as the number of samples grows, and so does the interval of get_mean_and_EB with method 't', clipped at any valid limits the data respect. If the expected value is 0, the probability that the p-value of t_test is at most alpha tends to alpha, for every alpha in [0,1].", "quantifier": "every probability space, every sequence of independent identically distributed random variables with finite nonzero variance, all confidence levels in (0,1), all levels alpha in [0,1], all limits including infinite ones", "why_tests_cant": "a statement about probabilities of events over all distributions in the limit of many samples; a simulation tests one distribution at one sample size up to sampling error", "anchors": ["mlpaper/mlpaper.py:t_test", "mlpaper/mlpaper.py:t_EB", "mlpaper/mlpaper.py:get_mean_and_EB"]}
{"id": "C131", "title": "The default loss table is asymptotically valid for any distribution of losses", "statement": "For a loss table that grows by independent rows, with losses of any distribution with finite nonzero variance: without pairwise_CI the probability that mean and error bar of loss_summary_table with method 't' contain the expected loss tends to the confidence level; with pairwise_CI this holds for the difference of the two means, the error bar and the expected difference to the reference; and if the expected losses of a method and of the reference are equal, the probability that the p-value of the method is at most alpha tends to alpha with and without pairwise_CI.", "quantifier": "every probability space, all joint distributions of the losses of a row with such differences, all metrics, methods, limits including infinite ones, all confidence levels in (0,1), all alpha in [0,1]", "why_tests_cant": "probabilities in the limit of many rows over all distributions", "anchors": ["mlpaper/mlpaper.py:loss_summary_table", "mlpaper/mlpaper.py:t_test", "mlpaper/mlpaper.py:t_EB", "mlpaper/mlpaper.py:get_mean_and_EB"]}
{"id": "C132", "title": "With more data the table converges to the truth", "statement": "For independent rows with the same distribution and finite nonzero variance, with probability 1 the mean in the loss table converges to the expected loss and the error bar to 0, with method 't' and any limits or method 'bernstein' and finite limits, with and without pairwise_CI. If the expected loss differs from that of the reference, the p-value converges to 0 with probability 1, so every real difference is eventually significant at every level. The same for get_mean_and_EB and get_test.", "quantifier": "every probability space, all distributions with finite nonzero variance, all confidence levels in (0,1), both methods, with and without pairwise_CI", "why_tests_cant": "almost sure convergence over infinite sequences of data", "anchors": ["mlpaper/mlpaper.py:loss_summary_table", "mlpaper/mlpaper.py:get_mean_and_EB", "mlpaper/mlpaper.py:get_test", "mlpaper/mlpaper.py:t_EB", "mlpaper/mlpaper.py:t_test", "mlpaper/mlpaper.py:bernstein_EB", "mlpaper/mlpaper.py:bernstein_test"]}
{"id": "C133", "title": "Error bars computed in floating point are accurate", "statement": "With every operation rounded and n*u <= 1e-6, t_EB returns the exact error bar up to a relative error of 14nu and an absolute error of 5nu times the average absolute value times quantile/sqrt(n); bernstein_EB up to 25nu relative and 5nu*average absolute value*sqrt(2 log(3/(1-c))/n) absolute. get_mean_and_EB, which clips, is within 2nu*B of the mean and within 130nu*log(3/(1-c))*B (Bernstein) or (33q+4)nu*B (t) of the error bar, B being the larger absolute limit; with an infinite limit the errors are those of t_EB. The standard deviation is accurate although it is computed from differences to a rounded mean.", "quantifier": "all data of any length with n*u <= 1e-6, all confidence levels in (0,1), all limits, all roundings with relative error u, all orders of summation, all sqrt, log and t quantiles with relative error u", "why_tests_cant": "a bound for all data and all orders of summation; cancellation in the variance shows only on particular data", "anchors": ["mlpaper/mlpaper.py:t_EB", "mlpaper/mlpaper.py:bernstein_EB", "mlpaper/mlpaper.py:get_mean_and_EB", "mlpaper/mlpaper.py:clip_EB"]}
{"id": "C134", "title": "The error bars of loss_summary_table are accurate in floating point", "statement": "If loss_summary_table returns a table in floating point and in exact arithmetic, corresponding cells agree: means up to 2nu*B, Bernstein error bars up to 130nu*log(3/(1-c))*B without pairwise_CI and 138nu*log(3/(1-c))*(h-l) with it, t error bars up to (33q+4)nu*B and (38q+7)nu*(h-l), and without limits up to q*nu*(14 standard error + 5 average absolute value/sqrt(n)), or 15 and 7 of the differences to the reference with pairwise_CI. With pairwise_CI this includes the rounding of the differences and of the limits.", "quantifier": "all tables, metrics, methods, references, limits, confidence levels in (0,1), with and without pairwise_CI, all numbers of rows with n*u <= 1e-6, all roundings and library functions with relative error u", "why_tests_cant": "a bound for all tables; tests compare a few tables with a tolerance", "anchors": ["mlpaper/mlpaper.py:loss_summary_table", "mlpaper/mlpaper.py:get_mean_EB_test", "mlpaper/mlpaper.py:t_EB", "mlpaper/mlpaper.py:bernstein_EB", "mlpaper/mlpaper.py:get_mean_and_EB", "mlpaper/mlpaper.py:clip_EB"]}
{"id": "C135", "title": "The promise of the confidence intervals survives rounding", "statement": "For independent rows with bounded losses, the table that loss_summary_table computes in floating point with method 'bernstein' contains the true expected loss within its error bar, up to 132nu*log(3/(1-c))*B, with probability at least the confidence; with pairwise_CI the true difference in expected loss within the error bar of the difference of the shown means, up to 4nu*B + 138nu*log(3/(1-c))*(h-l). For losses that are the floats nearest to normal numbers the same holds for method 't' without limits, up to the rounding errors of C134.", "quantifier": "every probability space, all distributions of losses within the limits, all confidence levels in (0,1), all numbers of rows with n*u <= 1e-6, all roundings and library functions with relative error u", "why_tests_cant": "probabilities over all distributions, for the program with rounding", "anchors": ["mlpaper/mlpaper.py:loss_summary_table", "mlpaper/mlpaper.py:t_EB", "mlpaper/mlpaper.py:bernstein_EB", "mlpaper/mlpaper.py:get_mean_and_EB", "mlpaper/mlpaper.py:clip_EB"]}
{"id": "C136", "title": "The printed table keeps the promise of the confidence intervals", "statement": "Whoever reads the text of just_format_it of a loss_summary_table computed in floating point, and takes the number and the digits in parentheses at face value after undoing the shift, learns this. A positive error bar that is shown is never smaller than the computed one and exceeds it by less than one unit of the last place; the mean is off by at most half such a unit. Without error bar (NaN, as for the reference with pairwise_CI, or above its limit) or with error bar 0 the mean has five significant digits. Hence for independent rows of bounded losses and method 'bernstein', with probability at least the confidence, in every text that shows a positive error bar the true expected loss is within it plus half a unit of the last place; with pairwise_CI the true difference is within it of the difference of the printed means, plus one part in 20000 of the mean of the reference; up to the rounding errors of C135. The same for method 't' without limits or pairwise_CI and normal losses.", "quantifier": "every probability space, all distributions of losses within the limits (or normal), all confidence levels in (0,1), all numbers of rows with n*u <= 1e-6, all roundings and library functions with relative error u, and inside the event all options of just_format_it", "why_tests_cant": "a probability over all distributions, for the text after computation in floats, rounding to decimals, shifting and padding; tests look at a few texts", "anchors": ["mlpaper/mlpaper.py:loss_summary_table", "mlpaper/sciprint.py:just_format_it", "mlpaper/sciprint.py:format_table", "mlpaper/sciprint.py:print_estimate", "mlpaper/sciprint.py:decimalize"]}
{"id": "C137", "title": "What loss_summary_table computes is a valid table of floats and can be printed", "statement": "Every mean, error bar and p-value that loss_summary_table returns in floating point is NaN, infinite or a float; every error bar is NaN or not negative and every p-value is NaN or in [0,1], whatever the losses. So the table can be handed to just_format_it as it is, and for finite losses just_format_it returns a text, TeX or plain, for every shift_mod of at least 1 and all limits and units, unless an estimate is more than 10^26 times its positive error bar.", "quantifier": "all tables, references, confidence levels, methods including 'boot' and all outcomes of its draws, limits, with and without pairwise_CI, all monotone roundings (to dyadic numbers, where the table is printed), all options of just_format_it with shift_mod >= 1", "why_tests_cant": "crashes or negative error bars caused by rounding occur only on particular data", "anchors": ["mlpaper/mlpaper.py:loss_summary_table", "mlpaper/sciprint.py:just_format_it", "mlpaper/sciprint.py:format_table", "mlpaper/sciprint.py:print_estimate", "mlpaper/sciprint.py:decimalize"]}
{"id": "C138", "title": "Bernstein p-values are accurate in floating point and stay valid when printed", "statement": "The p-value that bernstein_test computes in floating point differs from that of exact arithmetic at most by the factor exp(n(11 n u + 2k)), where u is the relative error of the arithmetic and k that of np.roots relative to the larger root, for data whose mean absolute value is at most the difference of the limits; the same for the p-values of loss_summary_table, with and without pairwise_CI. So for independent rows of bounded losses with the same expectation for method and reference the computed p-value is at most alpha with probability at most alpha times this factor, and likewise the p-value in the text of just_format_it: a number is at least the computed p-value, by less than 10^-4, '<0.0001' stands for p-values below 10^-4, and every finite p-value is shown.", "quantifier": "all data and limits, all numbers of rows with n*u <= 1e-6, all roundings and library functions with relative error u, all root finders with error k <= 1/2, every probability space, all distributions of losses within the limits, all alpha, all options of just_format_it", "why_tests_cant": "the p-value goes through a quadratic equation with rounded coefficients and an exponential; a probability over all distributions after computation and printing cannot be tested", "anchors": ["mlpaper/mlpaper.py:bernstein_test", "mlpaper/mlpaper.py:get_test", "mlpaper/mlpaper.py:get_mean_EB_test", "mlpaper/mlpaper.py:loss_summary_table", "mlpaper/sciprint.py:just_format_it", "mlpaper/sciprint.py:print_pval", "mlpaper/sciprint.py:decimalize"]}
{"id": "C139", "title": "p-values of the t test are accurate in floating point and stay valid when printed", "statement": "The p-value that t_test computes in floating point for finite data is between 0 and 1 and differs from that of exact arithmetic by at most 26 n u (1 + A/S) + 3h, where u is the relative error of the arithmetic, h the absolute error of ss.t.sf, S the standard error and A the mean absolute value of the data; in terms of the t statistic, by at most 26 n u (1 + sqrt(n) + |t|) + 3h. The same holds for the p-values of loss_summary_table with method 't', with and without pairwise_CI. So for losses whose differences from the reference are independent normal numbers with mean zero, the computed p-value is at most alpha with probability at most alpha + 26 n u (1 + sqrt(n) + 12/(5 alpha)) + 3h, and likewise the p-value in the text of just_format_it.", "quantifier": "all finite data, all numbers of rows with n*u <= 1e-6, all roundings and library functions with relative error u, all survival functions with error h, every probability space, all variances, all alpha, all options of just_format_it", "why_tests_cant": "the quotient of a rounded mean and a rounded standard error goes through Student's distribution; cancellation can occur in both, and probabilities after computation and printing cannot be tested", "anchors": ["mlpaper/mlpaper.py:t_test", "mlpaper/mlpaper.py:get_test", "mlpaper/mlpaper.py:get_mean_EB_test", "mlpaper/mlpaper.py:loss_summary_table", "mlpaper/sciprint.py:just_format_it", "mlpaper/sciprint.py:print_pval"]}
{"id": "C140", "title": "More bootstrap replicates settle on the ideal bootstrap, with a known noise level", "statement": "The bootstrap p-values and error bars depend on random resamples. As n_boot grows they settle, with probability one, on the values of the ideal bootstrap: significance converges to the two-sided p-value of the replicates' distribution, the ends of the percentile interval settle on its quantiles, boot_test converges to the p-value computed from all N^N equally likely resamples, and boot_EB settles on the smallest bar around the mean that leaves out at most (1 - confidence)/2 of all resamples on either side. For finite n_boot the p-value is off by more than 2 delta with probability at most 3 exp(-2 n_boot delta^2); two runs with different random numbers differ by more than 4 delta with probability at most 6 exp(-2 n_boot delta^2). In particular, the p-value that loss_summary_table shows with method_EB='boot' (1000 replicates) is off by more than 2 delta with probability at most 3 exp(-2000 delta^2).", "quantifier": "for all losses (at least two), all references, confidences, delta >= 0 and numbers of replicates, and almost all random streams", "why_tests_cant": "A test fixes one seed, or looks at a few seeds; the claim is about the probability over all random streams and the limit of infinitely many replicates.", "anchors": ["mlpaper/boot_util.py:boot_weights", "mlpaper/boot_util.py:percentile", "mlpaper/boot_util.py:significance", "mlpaper/boot_util.py:error_bar", "mlpaper/mlpaper.py:boot_test", "mlpaper/mlpaper.py:boot_EB", "mlpaper/mlpaper.py:loss_summary_table"]}
{"id": "C141", "title": "What just_benchmark shows is statistically valid for new data, end to end", "statement": "Train the methods, test them on n independent points of a population, and look at the table of just_benchmark. The risk of a method is its expected loss on a new point of the population. With method_EB='bernstein', at any n: the error bar around each mean contains the risk with probability at least 95%; with pairwise_CI the difference of the means and the error bar contain the difference of the risks with probability at least 95%; if a method and the reference have the same risk, its p-value is at most alpha with probability at most alpha. With the default method 't' the same holds with probability that tends to 95% or alpha as n grows, for any population with finite nonzero variance of the losses. In the limit the means converge to the risks, the error bars to 0, and the p-value of a method of different risk to 0, almost surely. The claims hold for the classification benchmark (log loss, and for two labels Brier, spherical and zero-one loss) and for the regression benchmark (any loss that scores points separately, in particular MSE, MAE and NLL).", "quantifier": "for all populations and probability spaces, all methods (estimators), losses, limits that contain the losses, numbers of test points, alpha and curves", "why_tests_cant": "A test can simulate a few populations with a few seeds; the claim is about the probability of coverage for every population, every estimator and every n.", "anchors": ["mlpaper/classification.py:just_benchmark", "mlpaper/regression.py:just_benchmark", "mlpaper/classification.py:get_pred_log_prob", "mlpaper/regression.py:get_gauss_pred", "mlpaper/mlpaper.py:loss_summary_table"]}
{"id": "C142", "title": "The AUC in the table is an unbiased and consistent estimate of the probability of ranking correctly", "statement": "Draw the positive test cases from one population and the negative ones from another. The AUC that just_benchmark shows for a method (and the area under roc_curve for any scores) is a random number whose expected value is exactly the probability that the method gives a new positive case a higher probability of label 1 than a new negative case, ties counting one half. Its variance is at most (1/n1 + 1/n0)/4 for n1 positive and n0 negative cases, so it is off by eps with probability at most (1/n1 + 1/n0)/(4 eps^2). The expected AUC is 1/2 for scores that do not depend on the label, and 1 for scores that separate the labels.", "quantifier": "for all populations, scoring rules, methods, numbers of positive and negative cases (at least one each) and all eps > 0", "why_tests_cant": "A test sees the AUC of a few samples; the claim is about its expected value and spread over all samples of every population.", "anchors": ["mlpaper/perf_curves.py:roc_curve", "mlpaper/util.py:area", "mlpaper/classification.py:curve_boot", "mlpaper/classification.py:just_benchmark"]}
{"id": "C143", "title": "Conclusions from a whole table of results are right with a stated probability", "statement": "Reading many cells of one table at once. With 'bernstein', the error bars of any k cells of the table of just_benchmark contain the risks on new data all at the same time with probability at least 1 - 5% k. So with that probability a reader who compares k methods is right whenever they conclude from disjoint error bars that the lower method has the smaller risk, and if they pick the method with the smallest mean then its risk exceeds that of the best method by at most the two error bars. With pairwise_CI, every method whose mean differs from that of the reference by more than its error bar differs in risk in that direction, for all k methods at once. If k p-values of methods with the risk of the reference are compared with alpha/k, any of them is at most alpha/k with probability at most alpha. With the default method 't' the same holds for large test sets up to any small delta.", "quantifier": "for all populations, predictors, losses, sets of methods or cells, levels alpha, test set sizes (large ones for 't'), classification and regression", "why_tests_cant": "The claim bounds the probability that any of many conclusions is wrong, over all samples of every population; a test sees single tables.", "anchors": ["mlpaper/classification.py:just_benchmark", "mlpaper/regression.py:just_benchmark", "mlpaper/mlpaper.py:loss_summary_table"]}
{"id": "C144", "title": "Formatting a table of floats never reaches the exponent limits of decimal arithmetic", "statement": "The decimal module limits exponents to +-999999: beyond, operations overflow, raise InvalidOperation, or round to zero. For tables of floats this never happens in create_decimal, decimalize, print_estimate, find_shift, format_table and just_format_it: with the limits they return, and raise, exactly what arithmetic with unbounded exponents says, whatever the values (from the smallest subnormal to the largest float), the digits asked for, the limits on error bars, clips up to 10^+-300000 and shift steps up to 300000. So all other properties of the formatting, stated for unbounded exponents, hold for the limited ones.", "quantifier": "for all tables of floats, digit options, limits, units and orders of candidate shifts with equal magnitude", "why_tests_cant": "The limits would only show for particular extreme combinations of values, digits and shifts; the claim excludes them for all.", "anchors": ["mlpaper/sciprint.py:create_decimal", "mlpaper/sciprint.py:decimalize", "mlpaper/sciprint.py:print_estimate", "mlpaper/sciprint.py:find_shift", "mlpaper/sciprint.py:format_table", "mlpaper/sciprint.py:just_format_it"]}
{"id": "C145", "title": "Exchanging method and reference gives the same error bar and p-value", "statement": "Comparing a method with a reference, or the reference with the method, gives the same p-value and, with pairwise_CI, the same error bar: bit for bit in floating point arithmetic with any rounding that treats positive and negative numbers alike, for the t test and the Bernstein bound always, and for the p-value of the bootstrap with the same weights. The error bar of the bootstrap is the same if the computed positions of the two percentiles are mirror images, which they always are in exact arithmetic and, in double precision, at the default confidence; at other confidences (1 - 2/999) they need not be.", "quantifier": "for all loss tables, limits, confidences, methods of computing error bars, odd rounding functions and orders of summation, and outcomes of the random number generator", "why_tests_cant": "Equality to the last bit for all losses in both directions of the comparison; the exception for the bootstrap needs particular confidences.", "anchors": ["mlpaper/mlpaper.py:loss_summary_table", "mlpaper/mlpaper.py:get_mean_EB_test", "mlpaper/mlpaper.py:get_test", "mlpaper/boot_util.py:error_bar", "mlpaper/boot_util.py:significance"]}
{"id": "C146", "title": "The units of the losses do not matter", "statement": "Multiplying the losses of a metric and its limits by a positive number and shifting them, say bits instead of nats or errors measured from another baseline, changes a table in no other way: loss_summary_table fails in the same way or not at all, the means are multiplied and shifted, the error bars are multiplied, and the p-values stay the same, for every method of computing error bars, with infinite losses and limits as well. Without pairwise_CI the bootstrap needs weights that add up to the number of data points, as those of np.random.multinomial do.", "quantifier": "for all loss tables, limits, positive factors and shifts of each metric, confidences, methods of computing error bars, reference distributions, and outcomes of the random number generator", "why_tests_cant": "Covers every table and every change of units at once, including failing calls; in floating point a test could only compare up to rounding.", "anchors": ["mlpaper/mlpaper.py:loss_summary_table", "mlpaper/mlpaper.py:get_mean_EB_test", "mlpaper/mlpaper.py:get_mean_and_EB", "mlpaper/mlpaper.py:bernstein_EB", "mlpaper/mlpaper.py:t_test", "mlpaper/boot_util.py:error_bar", "mlpaper/boot_util.py:significance"]}
{"id": "C147", "title": "How certain the AUC in the table is", "statement": "Draw n1 positive and n0 negative test cases independently from their populations. The AUC that just_benchmark shows for a method is off from the probability of ranking a new pair correctly by eps or more with probability at most 2 exp(-2 min(n1,n0) eps^2). Except with probability delta, the AUCs of all k methods in the table are off by less than sqrt(log(2k/delta)/(2 min(n1,n0))). The difference of the AUCs of two methods is off by eps or more with probability at most 2 exp(-min(n1,n0) eps^2/2), so the truly better of two methods fails to show the higher AUC with probability at most exp(-min(n1,n0) D^2/2), where D is the true difference.", "quantifier": "for all populations, scoring rules, sets of methods, numbers of positive and negative cases (at least one each), eps >= 0 and delta in (0, 1]", "why_tests_cant": "A statement about probabilities of rare events for every population.", "anchors": ["mlpaper/perf_curves.py:roc_curve", "mlpaper/util.py:area", "mlpaper/classification.py:curve_summary_table", "mlpaper/classification.py:just_benchmark"]}
{"id": "C148", "title": "A few test points cannot change a table by much", "statement": "If the losses of a method differ between two tables in k of n test points, and the metric has the finite limits lo and hi, then the means that loss_summary_table shows differ by at most k (hi - lo)/n, whatever the other settings. So if the means of two methods are more than 2 k (hi - lo)/n apart, no change of k test points can reverse their order. If k1 of n1 positive and k0 of n0 negative cases get another score, the area under roc_curve, and the AUC that just_benchmark shows, moves by at most k1/n1 + k0/n0.", "quantifier": "for all loss tables, limits, numbers of changed points, settings of the summary, scores and labels with both classes, and pairs of benchmark runs on test sets with the same labels", "why_tests_cant": "A worst case over all changes of the data, however adversarial.", "anchors": ["mlpaper/mlpaper.py:loss_summary_table", "mlpaper/perf_curves.py:roc_curve", "mlpaper/util.py:area", "mlpaper/classification.py:curve_summary_table", "mlpaper/classification.py:just_benchmark"]}
{"id": "C149", "title": "Losses of regressors survive overflow and underflow of doubles", "statement": "In IEEE 754 double precision, with its smallest and largest exponent: abs_loss is the double nearest to the absolute difference, inf if there is none, and 0 exactly if the mean equals the target. square_loss is never NaN or negative; it is inf if the difference is 2^512 (about 1.3e154) or more and finite for all smaller doubles; it is 0 for a wrong mean if the difference is 2^-538 or less, and not 0 from 2^-537 on. log_loss is a number or +inf, never NaN or -inf; it is +inf if the difference is 2^512 standard deviations or more, or if the difference is too large for a double although the standard deviation is as large, and otherwise a number if the difference is at most 2^511 standard deviations. A mean that is closer to the target never has a larger loss, for all three losses. If targets, means, standard deviations and the differences that are not 0 lie between 2^-250 and 2^250 in absolute value, the limits do not matter: the losses are those of C122, accurate to relative errors of 4e-16 (square), 2e-16 (absolute) and 2e-15 (of the terms of the log loss).", "quantifier": "for all double targets, means and positive double standard deviations, and for the log loss for all libraries with logarithms of at most 1024 in absolute value, such as one with correct rounding", "why_tests_cant": "The statement is about all doubles, with thresholds that are exact to one unit in the last place; tests use numbers near 1.", "anchors": ["mlpaper/regression.py:square_loss", "mlpaper/regression.py:abs_loss", "mlpaper/regression.py:log_loss"]}
{"id": "C150", "title": "Log-probabilities and Brier losses survive overflow and underflow of doubles", "statement": "In IEEE 754 double precision, with its smallest and largest exponent: normalize of rows of doubles and -inf, with at least one number per row, returns rows of doubles and -inf with at least one number, no NaN and nothing above 0, in the same order. Impossible labels stay impossible. A possible label becomes impossible if another entry of the row is larger by 2^1024 - 2^970 or more, and stays possible if no entry is larger by more than 2^1023. If no entry exceeds 2^1000 in absolute value, normalize returns what it would return without a largest exponent; without columns it raises AssertionError. For log-probabilities up to 0 nothing overflows in brier_loss: it returns what it would return without a largest exponent, and every loss is a number between 0 and the number of labels, or twice that, rounded, if rescaled, although probabilities underflow to 0; invalid input raises AssertionError.", "quantifier": "for all matrices of such rows with up to 2^53 labels, all labels, both values of rescale, and all libraries with the stated bounds on exp and log, such as one with correct rounding", "why_tests_cant": "The statement is about all doubles and all orders of addition, including differences near the largest double; tests use a few rows of random numbers near 1.", "anchors": ["mlpaper/util.py:normalize", "mlpaper/classification.py:brier_loss"]}
