{
"C01": {
"note": "Floats are exact binary rationals, decimals as in Python's decimal module without Emax/Emin."
},
"C02": {
"note": "Floats are exact binary rationals, decimals as in Python's decimal module without Emax/Emin."
},
"C03": {
"note": "Floats are exact binary rationals, decimals as in Python's decimal module without Emax/Emin."
},
"C04": {
"note": "Floats are exact binary rationals, decimals as in Python's decimal module without Emax/Emin."
},
"C05": {
"note": "Floats are exact binary rationals, decimals as in Python's decimal module without Emax/Emin."
},
"C06": {
"note": "Floats are exact binary rationals, decimals as in Python's decimal module without Emax/Emin."
},
"C07": {
"note": "Floats are exact binary rationals, decimals as in Python's decimal module without Emax/Emin."
},
"C08": {
"note": "Floats are exact binary rationals, decimals as in Python's decimal module without Emax/Emin."
},
"C09": {
"note": "Floats are exact binary rationals, decimals as in Python's decimal module without Emax/Emin."
},
"C10": {
"note": "Floats are exact binary rationals, decimals as in Python's decimal module without Emax/Emin."
},
"C11": {
"note": "Floats are exact binary rationals, decimals as in Python's decimal module without Emax/Emin."
},
"C12": {
"note": "Floats are exact binary rationals, decimals as in Python's decimal module without Emax/Emin."
},
"C13": {
"note": "Decimals as in Python's decimal module without Emax/Emin. The pandas export is in C99-C101."
},
"C14": {
"note": "Decimals as in Python's decimal module without Emax/Emin. The pandas export is in C99-C101."
},
"C15": {
"note": "Decimals as in Python's decimal module without Emax/Emin. The pandas export is in C99-C101."
},
"C16": {
"note": "Decimals as in Python's decimal module without Emax/Emin. The pandas export is in C99-C101."
},
"C17": {
"note": "Decimals as in Python's decimal module without Emax/Emin. The pandas export is in C99-C101."
},
"C18": {
"note": "Decimals as in Python's decimal module without Emax/Emin. The pandas export is in C99-C101."
},
"C19": {
"note": "Decimals as in Python's decimal module without Emax/Emin. The pandas export is in C99-C101."
},
"C20": {
"note": "Decimals as in Python's decimal module without Emax/Emin. The pandas export is in C99-C101."
},
"C21": {
"note": "Decimals as in Python's decimal module without Emax/Emin. The pandas export is in C99-C101."
},
"C22": {
"note": "Decimals as in Python's decimal module without Emax/Emin. The pandas export is in C99-C101."
},
"C23": {
"note": "Decimals as in Python's decimal module without Emax/Emin. The pandas export is in C99-C101."
},
"C24": {
"note": "Decimals as in Python's decimal module without Emax/Emin. The pandas export is in C99-C101."
},
"C25": {
"note": "Random choices are parameters; products and quotients are rounded by an arbitrary monotone rounding where stated, otherwise exact."
},
"C26": {
"note": "Random choices are parameters; products and quotients are rounded by an arbitrary monotone rounding where stated, otherwise exact."
},
"C27": {
"note": "Random choices are parameters; products and quotients are rounded by an arbitrary monotone rounding where stated, otherwise exact."
},
"C28": {
"note": "Random choices are parameters; products and quotients are rounded by an arbitrary monotone rounding where stated, otherwise exact."
},
"C29": {
"note": "Random choices are parameters; products and quotients are rounded by an arbitrary monotone rounding where stated, otherwise exact."
},
"C30": {
"note": "Random choices are parameters; products and quotients are rounded by an arbitrary monotone rounding where stated, otherwise exact."
},
"C31": {
"note": "Random choices are parameters; products and quotients are rounded by an arbitrary monotone rounding where stated, otherwise exact."
},
"C32": {
"note": "Random choices are parameters; products and quotients are rounded by an arbitrary monotone rounding where stated, otherwise exact."
},
"C33": {
"note": "Random choices are parameters; products and quotients are rounded by an arbitrary monotone rounding where stated, otherwise exact."
},
"C34": {
"note": "Random choices are parameters; products and quotients are rounded by an arbitrary monotone rounding where stated, otherwise exact."
},
"C35": {
"note": "Random choices are parameters; products and quotients are rounded by an arbitrary monotone rounding where stated, otherwise exact."
},
"C36": {
"note": "Finite floats are exact (no rounding error); special values follow IEEE. Bootstrap draws are parameters: every outcome is covered."
},
"C37": {
"note": "Finite floats are exact (no rounding error); special values follow IEEE. Bootstrap draws are parameters: every outcome is covered."
},
"C38": {
"note": "Finite floats are exact (no rounding error); special values follow IEEE. Bootstrap draws are parameters: every outcome is covered."
},
"C39": {
"note": "Finite floats are exact (no rounding error); special values follow IEEE. Bootstrap draws are parameters: every outcome is covered."
},
"C40": {
"note": "Finite floats are exact (no rounding error); special values follow IEEE. Bootstrap draws are parameters: every outcome is covered."
},
"C41": {
"note": "Finite floats are exact (no rounding error); special values follow IEEE. Bootstrap draws are parameters: every outcome is covered."
},
"C42": {
"note": "Finite floats are exact (no rounding error); special values follow IEEE. Bootstrap draws are parameters: every outcome is covered."
},
"C43": {
"note": "Finite floats are exact (no rounding error); special values follow IEEE. Bootstrap draws are parameters: every outcome is covered."
},
"C44": {
"note": "Finite floats are exact (no rounding error); special values follow IEEE. Bootstrap draws are parameters: every outcome is covered."
},
"C45": {
"note": "Finite floats are exact (no rounding error); special values follow IEEE. The reference distribution is abstract (symmetric, continuous, strictly increasing); C45_student is for Student's t distribution itself."
},
"C46": {
"note": "Finite floats are exact (no rounding error); special values follow IEEE."
},
"C47": {
"note": "Finite floats are exact (no rounding error); special values follow IEEE."
},
"C48": {
"note": "Finite floats are exact (no rounding error); special values follow IEEE."
},
"C49": {
"note": "Finite floats are exact (no rounding error); special values follow IEEE."
},
"C50": {
"note": "Finite floats are exact (no rounding error); special values follow IEEE."
},
"C51": {
"note": "Finite floats are exact (no rounding error); special values follow IEEE."
},
"C52": {
"note": "Finite floats are exact (no rounding error); special values follow IEEE."
},
"C53": {
"note": "Finite floats are exact (no rounding error); special values follow IEEE."
},
"C54": {
"note": "Finite floats are exact (no rounding error); special values follow IEEE."
},
"C55": {
"note": "Finite floats are exact (no rounding error); special values follow IEEE."
},
"C56": {
"note": "Finite floats are exact (no rounding error); special values follow IEEE."
},
"C57": {
"note": "Finite floats are exact (no rounding error); special values follow IEEE."
},
"C58": {
"note": "The successor function on floats is abstract, so the theorems also hold for the real nextafter."
},
"C59": {
"note": "Finite floats are exact (no rounding error); special values follow IEEE."
},
"C60": {
"note": "Finite floats are exact (no rounding error); special values follow IEEE."
},
"C61": {
"note": "Finite floats are exact (no rounding error); special values follow IEEE."
},
"C62": {
"note": "Finite floats are exact (no rounding error); special values follow IEEE."
},
"C63": {
"note": "Finite floats are exact (no rounding error); special values follow IEEE. The sort is stable as in the code; C65 shows that the order of the samples does not matter."
},
"C64": {
"note": "Finite floats are exact (no rounding error); special values follow IEEE. The sort is stable as in the code; C65 shows that the order of the samples does not matter."
},
"C65": {
"note": "Finite floats are exact (no rounding error); special values follow IEEE. The sort is stable as in the code; C65 shows that the order of the samples does not matter."
},
"C66": {
"note": "Finite floats are exact (no rounding error); special values follow IEEE. The sort is stable as in the code; C65 shows that the order of the samples does not matter."
},
"C67": {
"note": "Finite floats are exact (no rounding error); special values follow IEEE. The sort is stable as in the code; C65 shows that the order of the samples does not matter."
},
"C68": {
"note": "Finite floats are exact (no rounding error); special values follow IEEE. The sort is stable as in the code; C65 shows that the order of the samples does not matter."
},
"C69": {
"note": "Finite floats are exact (no rounding error); special values follow IEEE. The sort is stable as in the code; C65 shows that the order of the samples does not matter."
},
"C70": {
"note": "Finite floats are exact (no rounding error); special values follow IEEE. The sort is stable as in the code; C65 shows that the order of the samples does not matter."
},
"C71": {
"note": "Finite floats are exact (no rounding error); special values follow IEEE. The sort is stable as in the code; C65 shows that the order of the samples does not matter."
},
"C72": {
"note": "Finite floats are exact (no rounding error); special values follow IEEE. The sort is stable as in the code; C65 shows that the order of the samples does not matter."
},
"C73": {
"note": "Finite floats are exact (no rounding error); special values follow IEEE. The sort is stable as in the code; C65 shows that the order of the samples does not matter."
},
"C74": {
"note": "Finite floats are exact (no rounding error); special values follow IEEE."
},
"C75": {
"note": "Finite floats are exact (no rounding error); special values follow IEEE."
},
"C76": {
"note": "Finite floats are exact (no rounding error); special values follow IEEE."
},
"C77": {
"note": "Finite floats are exact (no rounding error); special values follow IEEE."
},
"C78": {
"note": "Finite floats are exact (no rounding error); special values follow IEEE."
},
"C79": {
"note": "Finite floats are exact (no rounding error); special values follow IEEE."
},
"C80": {
"note": "Finite floats are exact (no rounding error); special values follow IEEE. Estimators are arbitrary functions; bootstrap draws are parameters."
},
"C81": {
"note": "Finite floats are exact (no rounding error); special values follow IEEE. Estimators are arbitrary functions; bootstrap draws are parameters."
},
"C82": {
"note": "Finite floats are exact (no rounding error); special values follow IEEE. Estimators are arbitrary functions; bootstrap draws are parameters."
},
"C83": {
"note": "Finite floats are exact (no rounding error); special values follow IEEE. Estimators are arbitrary functions; bootstrap draws are parameters."
},
"C84": {
"note": "Finite floats are exact (no rounding error); special values follow IEEE. Estimators are arbitrary functions; bootstrap draws are parameters."
},
"C85": {
"note": "Finite floats are exact (no rounding error); special values follow IEEE. Estimators are arbitrary functions."
},
"C86": {
"note": "Finite floats are exact (no rounding error); special values follow IEEE. Estimators are arbitrary functions."
},
"C87": {
"note": "Finite floats are exact (no rounding error); special values follow IEEE. Estimators are arbitrary functions."
},
"C88": {
"note": "Finite floats are exact (no rounding error); special values follow IEEE. Estimators are arbitrary functions."
},
"C89": {
"note": "Finite floats are exact (no rounding error); special values follow IEEE. Estimators are arbitrary functions."
},
"C90": {
"note": "joblib's store is keyed by the arguments themselves (no hash collisions); a partly written result does not load."
},
"C91": {
"note": "Finite floats are exact (no rounding error); special values follow IEEE. Estimators are arbitrary functions; bootstrap draws are parameters."
},
"C92": {
"note": "Finite floats are exact (no rounding error); special values follow IEEE. Estimators are arbitrary functions; bootstrap draws are parameters."
},
"C93": {
"note": "Finite floats are exact (no rounding error). The data are random variables on a probability space, independent across points or rows, bounded, with equal means."
},
"C94": {
"note": "Finite floats are exact (no rounding error). The data are random variables on a probability space, independent across points or rows, bounded, with equal means."
},
"C95": {
"note": "Finite floats are exact (no rounding error). The t distribution is the one constructed in Lemmas/StudentT.lean. Independent normal data."
},
"C96": {
"note": "Finite floats are exact (no rounding error). The t distribution is the one constructed in Lemmas/StudentT.lean. Independent normal losses or differences."
},
"C97": {
"note": "numpy's permutation(n) is taken to be uniform; the pseudo random generator is not modelled."
},
"C98": {
"note": "Moments of a replicate; coverage of the bootstrap interval has no finite sample guarantee and none is claimed."
},
"C99": {
"note": "The pandas layout (to_latex of pandas 0.24) is written from knowledge of its source, which is not available here; it agrees with the sample output in README.rst up to blanks next to the empty corner."
},
"C100": {
"note": "The pandas layout (to_string of pandas 0.24) is written from knowledge of its source, see C99."
},
"C101": {
"note": "The limit is the default display.max_colwidth of pandas 0.24, see C99."
},
"C102": {
"note": "Losses of minus infinity or NaN are outside the statement."
},
"C103": {
"note": "decimalize never produces such a mean together with a finite error (C07), so this concerns direct calls of print_estimate and format_table."
},
"C104": {
"note": "rounding is a parameter; binary64 with unbounded exponents is an instance; overflow and underflow are not modelled"
},
"C105": {
"note": "bounds are sufficient, not necessary; overflow and underflow are not modelled"
},
"C106": {
"note": "overflow and underflow are not modelled"
},
"C107": {
"note": "rounding is a parameter, binary64 an instance; overflow and underflow are not modelled"
},
"C108": {
"note": "library functions are parameters with the contracts GoodLib, met by doubleLib; overflow and underflow are not modelled"
},
"C109": {
"note": "library functions are parameters with the contracts GoodLib, met by doubleLib; overflow and underflow are not modelled"
},
"C110": {
"note": "relates the two models of the same code"
},
"C111": {
"note": "overflow and underflow are not modelled"
},
"C112": {
"note": "y values of -inf are accepted, as PRG curves need"
},
"C113": {
"note": "overflow and underflow are not modelled"
},
"C114": {
"note": "np.interp and np.trapz as in numpy 1.15; no overflow or underflow"
},
"C115": {
"note": "larger samples are not covered because C105 bounds the rounding of the cumulative sums in the worst case"
},
"C116": {
"note": "replicates that drew no negative sample are not covered by the bound: their false positive rates are ratios of sums of tiny weights added after large ones"
},
"C117": {
"note": ""
},
"C118": {
"note": "Error bars and estimates are the exact values of the floats. The pipeline theorem is about the floating point model of loss_summary_table with pairwise_CI."
},
"C119": {
"note": "Anything proved about the rounded model for all libraries, as in C120, therefore holds of the exact model too, and the rounded model does the same steps as the code in the same order."
},
"C120": {
"note": "Overflow and underflow are not modelled. `DotError` covers any order of additions and fused operations of np.dot."
},
"C121": {
"note": "The example runs the theorem for JustNoise and a classifier that excludes a label, in double precision. Overflow and underflow are not modelled; `np.sum` may add in any order; np.log must return floats."
},
"C122": {
"note": "Overflow and underflow are not modelled: a computed variance is 0 only if all targets equal the mean. `scipy.stats.norm.logpdf` is modelled with the float next to pi. np.sum may add in any order."
},
"C123": {
"note": "Different references of the heap never share entries (no numpy views)."
},
"C124": {
"note": "`Decimal.__format__` is a parameter of which only the meaning of `,f` is used."
},
"C125": {
"note": "No overflow or underflow. The log loss is the negated prediction without rounding (C120_log)."
},
"C126": {
"note": "No overflow or underflow. The zero-one loss is not in the list: rounding may create ties, for which C121 gives the range only."
},
"C127": {
"note": "Losses (exp, log, sqrt) are not covered: there the theorems assume that nothing overflows or underflows. The sign of zero is not modelled."
},
"C128": {
"note": "Overflow is not part of this property: ieeeRound has no largest exponent. The contract on np.roots asks for roots with the right signs for every positive leading coefficient."
},
"C129": {
"note": "The bounds 2^200 are far from sharp. Overflow inside the implementations of sqrt, log, exp, np.roots and ss.t is not modelled; what they have to return is the contract IeeeLib."
},
"C130": {
"note": "t_EB uses studentT of Spec/StudentT.lean as the reference distribution (exact in C95); real arithmetic."
},
"C131": {
"note": "Losses of different methods in a row may depend on each other; the rows are independent."
},
"C132": {
"note": "Vanishes says that a sequence of floats is eventually a number in [0, eps) for every eps. The bootstrap method is not included: its result depends on the draws."
},
"C133": {
"note": "u is the unit roundoff, 2^-53 for double precision; no underflow or overflow (see C128, C129). doubleLib_quantile shows that correctly rounded quantiles meet the hypothesis."
},
"C134": {
"note": "B = max(|l|,|h|) for limits l, h; method 'boot' is not included (its order statistics of rounded means are covered by C111 and C115)."
},
"C135": {
"note": "The exact table is not assumed to exist; only the one computed in floating point."
},
"C136": {
"note": "Shows says that the text is the result of just_format_it on the very table that loss_summary_table returned; C137 shows that such texts exist. Nothing is promised about a cell whose error bar is left out because it exceeds its limit."
},
"C137": {
"note": "The bound 10^26 is the precision of 28 decimal digits of the decimal module; beyond it the code can raise (C118)."
},
"C138": {
"note": "The accuracy of np.roots is an assumption (AccurateRoots): eigenvalues of the companion matrix have errors relative to the larger root. Without underflow, as for C133."
},
"C139": {
"note": "The accuracy of ss.t.sf is an assumption (AccurateSf). Without underflow, as for C133. In the statements on tables the losses themselves are exact and their differences rounded."
},
"C140": {
"note": "The rows handed to the model are the multinomial counts of the draws (`drawCounts`), as in C98. Quantiles are described by the shares on either side (no continuity is assumed), so at atoms of the distribution exactly at level (1-c)/2 the theorem gives no value, as it must."
},
"C141": {
"note": "Exact arithmetic (floating point: C133 to C139). The events are stated so that a benchmark that fails shows nothing (no false promise); C141_success and C141_regr_success show that it does succeed with limits that contain all losses. The training data is fixed, as in the code: the risk is that of the trained method."
},
"C142": {
"note": "The labels of the test set are fixed and the cases of each label are drawn from the population of that label, which is the same as conditioning on the labels of a random test set. Exact arithmetic."
},
"C143": {
"note": "As C141. The package does not correct for multiple comparisons; the theorems say what the reader has to pay for them."
},
"C144": {
"note": "Default context of the decimal module. The user's own clips or shift steps beyond 300000 are excluded; the last example shows that the limits then matter."
},
"C145": {
"note": "For the model with rounding (C108) and the exact one. Overflow is outside of this model; C129 shows when there is none."
},
"C146": {
"note": "For the model with exact arithmetic."
},
"C147": {
"note": "As in C142 the labels of the test set are fixed. Exact arithmetic; C116 bounds the rounding of the AUC."
},
"C148": {
"note": "Exact arithmetic; C111 and C116 bound the rounding."
},
"C149": {
"note": "Signed zeros are not modelled; the largest-exponent behaviour of logarithms is a hypothesis, which C149_library discharges for correct rounding."
},
"C150": {
"note": "Sums inside logsumexp and brier_loss are those of the library, rounded with gradual underflow; they add up numbers of at most 1 and stay below 2^53. The log loss and the spherical loss are not covered at the exponent limits."
}
}