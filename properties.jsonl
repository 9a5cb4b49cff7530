{"id": "C01", "title": "Dense, bijective identifiers", "statement": "After constructing a Dataset from any sequence of triples that is accepted, the source, variable and claim mappings are bijections between the labels that occur and 0..n-1, numbered in order of first appearance; looking an id up in the inverse and the label in the forward direction are mutually inverse, and num_sources/num_variables/num_claims are the numbers of distinct labels. get_id on a known label changes nothing; with insert=False an unknown label raises KeyError and changes nothing. The underlying bidict never meets a duplicate value.", "quantifier": "every sequence of triples over any label types with lawful equality, and every sequence of get_id calls", "why_tests_cant": "The number and pattern of repeated labels is unbounded; a clash would only show up for particular interleavings of new and old labels.", "anchors": ["truthdiscovery/input/dataset.py:IDMapping.get_id", "truthdiscovery/input/dataset.py:Dataset.__init__"]}
{"id": "C02", "title": "Source-claim matrix is exactly the claim relation", "statement": "sc[i, j] is 1 if source i is recorded as claiming claim j, and 0 otherwise; there are no duplicate stored entries, and the shape is num_sources x num_claims.", "quantifier": "every accepted sequence of triples and every pair of a source and a claim", "why_tests_cant": "All input sequences, of any length and any pattern of repetition, have to be covered.", "anchors": ["truthdiscovery/input/dataset.py:Dataset.__init__"]}
{"id": "C03", "title": "Mutual exclusion matrix is the same-variable relation", "statement": "mut_ex[j, k] is 1 iff claims j and k are about the same variable (including j = k), else 0; so it is symmetric, reflexive and transitive.", "quantifier": "every accepted sequence of triples and every pair of claims", "why_tests_cant": "Unbounded number of variables and claims.", "anchors": ["truthdiscovery/input/dataset.py:Dataset.__init__"]}
{"id": "C04", "title": "Implication matrix and its validation", "statement": "With an implication function f, construction raises ValueError iff f returns a value < -1 or > 1 for some ordered pair of different claimed values of one variable; otherwise imp[j, k] is f(var, val_j, val_k) when j and k are different claims about the same variable and f is not None there, and 0 everywhere else. Without a function imp is zero.", "quantifier": "every accepted sequence of triples and every implication function (a pure function returning None or a number)", "why_tests_cant": "Quantifies over all functions and all datasets.", "anchors": ["truthdiscovery/input/dataset.py:Dataset.__init__"]}
{"id": "C05", "title": "Duplicate claims: rejected, or first wins", "statement": "With allow_multiple=False construction raises ValueError iff some source occurs twice with the same variable (even with the same value), naming the first offending source and variable. With allow_multiple=True it never raises for that reason, and the recorded claims are those of the triples that are the first for their (source, variable) pair.", "quantifier": "every sequence of triples", "why_tests_cant": "The position and number of duplicates is unbounded.", "anchors": ["truthdiscovery/input/dataset.py:Dataset.__init__"]}
{"id": "C06", "title": "No isolated nodes", "statement": "In every constructed dataset, every source makes at least one claim, every claim is made by at least one source, and every variable has at least one claim, also when duplicates were skipped.", "quantifier": "every accepted sequence of triples, both settings of allow_multiple", "why_tests_cant": "Later code divides by these counts; the property must hold for all inputs.", "anchors": ["truthdiscovery/input/dataset.py:Dataset.__init__"]}
{"id": "C07", "title": "Score vectors are reported under the right labels", "statement": "get_source_trust_dict maps exactly the source labels of the dataset, each to the entry of the vector at its id; get_belief_dict has an entry for (var, val) iff some recorded triple claims it, holding the entry at that claim's id; no entry is lost or overwritten.", "quantifier": "every accepted sequence of triples and every trust/belief vector of the right length", "why_tests_cant": "A collision between (variable, value) pairs, e.g. equal values of different variables, can only be excluded for all inputs by proof.", "anchors": ["truthdiscovery/input/dataset.py:Dataset.get_belief_dict", "truthdiscovery/input/dataset.py:Dataset.get_source_trust_dict"]}
{"id": "C08", "title": "num_connected_components counts connected components", "statement": "num_connected_components returns the number of connected components of the graph whose nodes are sources, variables and claims. (The code over-counts for some inputs: proved is that the result is never below the true number, the exact condition under which it is correct, and a refuting dataset.)", "quantifier": "every accepted sequence of triples", "why_tests_cant": "Correctness depends on the order in which sources first appear; the shipped tests only use orders where the answer is right.", "anchors": ["truthdiscovery/input/dataset.py:Dataset.num_connected_components"]}
{"id": "C09", "title": "EmptyDatasetError exactly for datasets without claims", "statement": "run of every algorithm (and the first next() of run_iter) raises EmptyDatasetError iff the dataset was built from no triples, before doing anything else.", "quantifier": "every dataset and every algorithm configuration", "why_tests_cant": "All configurations and all inputs.", "anchors": ["truthdiscovery/algorithm/base.py:BaseAlgorithm.run", "truthdiscovery/algorithm/base.py:BaseIterativeAlgorithm.run_iter"]}
{"id": "C10", "title": "Matrix datasets claim exactly the unmasked cells", "statement": "A MatrixDataset built from a two dimensional matrix never raises the duplicate-claim error; row i claims column j = v iff cell (i, j) is not masked and holds v; sources/variables are exactly the rows/columns with an unmasked cell, labelled with their indices.", "quantifier": "every matrix, of any size, with any mask", "why_tests_cant": "All shapes and masks.", "anchors": ["truthdiscovery/input/matrix_dataset.py:MatrixDataset.__init__", "truthdiscovery/input/matrix_dataset.py:MatrixDataset.get_triples"]}
{"id": "C11", "title": "CSV round trip of a matrix dataset", "statement": "from_csv(to_csv(d)) rebuilds the same matrix with the same mask. (False for one-column matrices whose first or last row is empty, since the whole text is stripped, and for matrices with no rows or no columns; proved under the exact complementary condition, with refuting examples.)", "quantifier": "every matrix with at least one row and two columns, or one column with non-empty first and last row; every number printer/parser pair that round-trips", "why_tests_cant": "Unbounded shapes and masks; the failing corner is not visited by the tests.", "anchors": ["truthdiscovery/input/matrix_dataset.py:csv_to_masked_array", "truthdiscovery/input/matrix_dataset.py:MatrixDataset.to_csv"]}
{"id": "C12", "title": "CSV parsing: accepted texts and errors", "statement": "csv_to_masked_array raises ValueError iff the stripped text has a row whose number of comma separated fields differs from the first row's, or a non-blank field that is not a number; otherwise it returns one row per line and one column per field, masked exactly where the field is blank or NaN. Surrounding whitespace of the file and of fields does not matter. from_csv turns every such error into ValueError.", "quantifier": "every text and every number parser", "why_tests_cant": "All strings.", "anchors": ["truthdiscovery/input/matrix_dataset.py:csv_to_masked_array", "truthdiscovery/input/matrix_dataset.py:MatrixDataset.from_csv"]}
{"id": "C13", "title": "Supervised CSV: first row is truth, the rest is data", "statement": "SupervisedData.from_csv on a text that parses to rows r0, r1, ... gives true values exactly for the unmasked cells of r0, keyed by column index, and a dataset equal to the MatrixDataset of the remaining rows, whose sources are numbered from 0.", "quantifier": "every parsable text", "why_tests_cant": "All matrices.", "anchors": ["truthdiscovery/input/supervised_data.py:SupervisedData.from_csv"]}
{"id": "C14", "title": "Accuracy", "statement": "get_accuracy raises ValueError iff there is no known variable with at least two claimed values in the results; otherwise, whatever the random tie-breaking returns, the value is (number of counted variables whose chosen most-believed value is the true one) / (number of counted variables), a number in [0, 1]; it is 1 when the true value is the unique most believed value of each counted variable, and independent of the random choices when there are no ties. For the result of a run, a variable counts iff its true value is known and the dataset has two different claims about it, whatever the algorithm.", "quantifier": "every result, every dictionary of true values and every sequence of random choices", "why_tests_cant": "The random choices cannot be enumerated by tests.", "anchors": ["truthdiscovery/input/supervised_data.py:SupervisedData.get_accuracy"]}
{"id": "C15", "title": "Synthetic data: shape, coverage and domain", "statement": "For valid parameters and every outcome of the random generator, SyntheticData yields len(trust) rows and num_variables columns, every variable is claimed by at least one source, every source makes at least one claim, every claimed and true value is in 0..domain_size-1, and every true value is known; with claim_probability 1 every cell is filled; a source of trust 1 only makes true claims and a source of trust 0 only false ones.", "quantifier": "every valid parameter setting and every sequence of random draws", "why_tests_cant": "The fix-up branches are marked `pragma: no cover`: they run with tiny probability.", "anchors": ["truthdiscovery/input/synthetic_data.py:SyntheticData.__init__", "truthdiscovery/input/synthetic_data.py:SyntheticData.generate_claim"]}
{"id": "C16", "title": "Synthetic data: parameter validation", "statement": "SyntheticData raises ValueError iff the trust vector is empty, a trust value is NaN or outside [0, 1], claim_probability is a number not in (0, 1], domain_size <= 1, or num_variables <= 0 (a NaN claim_probability is accepted); the randomness plays no role in this.", "quantifier": "every parameter setting and every sequence of random draws", "why_tests_cant": "All parameter values.", "anchors": ["truthdiscovery/input/synthetic_data.py:SyntheticData.__init__"]}
{"id": "C17", "title": "Claims are drawn from a probability distribution", "statement": "The weights generate_claim passes to the sampler have length domain_size, lie in [0, 1], sum to 1, give the true value weight trust and every other value the same weight (1-trust)/(domain_size-1); with a uniform random number in [0, 1) each value is drawn with exactly this probability.", "quantifier": "every trust in [0, 1], domain size >= 2 and true value in the domain (exact arithmetic)", "why_tests_cant": "A continuum of trust values.", "anchors": ["truthdiscovery/input/synthetic_data.py:SyntheticData.generate_claim"]}
{"id": "C18", "title": "Synthetic CSV export can be read back", "statement": "SupervisedData.from_csv(synth.to_csv()) has the same true values and the same claims as synth.", "quantifier": "every synthetic dataset, i.e. every valid parameters and random draws", "why_tests_cant": "All random outcomes.", "anchors": ["truthdiscovery/input/synthetic_data.py:SyntheticData.to_csv", "truthdiscovery/input/supervised_data.py:SupervisedData.from_csv"]}
{"id": "C19", "title": "FixedIterator performs exactly its limit", "statement": "FixedIterator(n) raises ValueError iff n < 0. Any iterative algorithm run with FixedIterator(n) on a non-empty dataset stops by itself, and its result reports iterations = n, or a smaller number only if the algorithm gave up in the reported state: in Investment and PooledInvestment because nothing is invested in some claim, in TruthFinder because some source has trust score 1. Conversely an algorithm gives up at the first such state, with any iterator.", "quantifier": "every limit, every dataset, every algorithm and any arithmetic (floating point included)", "why_tests_cant": "All limits and all data; termination is not a testable property.", "anchors": ["truthdiscovery/utils/iterator.py:FixedIterator", "truthdiscovery/algorithm/base.py:BaseIterativeAlgorithm.run"]}
{"id": "C20", "title": "ConvergenceIterator stops in time or reports failure", "statement": "With ConvergenceIterator(measure, threshold, limit) any algorithm always stops by itself: the run either ends with a result whose last two trust vectors have distance < threshold (or from whose last result the algorithm cannot continue, as in C19) after at most limit iterations, or raises ConvergenceError after exactly max(limit, 0) iterations, none of which had distance < threshold. No further iteration is done once a distance below the threshold was seen.", "quantifier": "every dataset, algorithm, measure, threshold and limit, any arithmetic", "why_tests_cant": "Termination and all execution lengths.", "anchors": ["truthdiscovery/utils/iterator.py:ConvergenceIterator"]}
{"id": "C21", "title": "Distance measures", "statement": "get_distance is non-negative, symmetric and zero on equal vectors (cosine: on equal non-zero vectors); L1, L2 and L_INF obey the triangle inequality and vanish only for equal vectors; cosine lies in [0, 1], is 1 if either vector is zero, and is unchanged by positive scaling. For empty vectors L1 and L2 are 0, cosine is 1, and L_INF raises ValueError. Anything that is not a member of the enumeration raises ValueError.", "quantifier": "all pairs of real vectors of equal length (exact arithmetic)", "why_tests_cant": "A continuum of vectors.", "anchors": ["truthdiscovery/utils/iterator.py:ConvergenceIterator.get_distance"]}
{"id": "C22", "title": "Ranking vectors", "statement": "get_ranking_vector maps each entry to the number of distinct smaller entries: equal entries get equal ranks, larger entries get larger ranks, and the ranks used are exactly 0..k-1 for k distinct entries. It is unchanged by any strictly increasing transformation of the entries and by ranking twice.", "quantifier": "all finite-valued vectors of every length", "why_tests_cant": "All vectors.", "anchors": ["truthdiscovery/utils/iterator.py:OrdinalConvergenceIterator.get_ranking_vector"]}
{"id": "C23", "title": "OrdinalConvergenceIterator", "statement": "finished() is true iff at least `threshold` most recent consecutive comparisons since the last reset compared equal rankings (comparisons that raised an exception are ignored).", "quantifier": "every history of comparisons and resets, including comparisons that raise", "why_tests_cant": "Unbounded histories.", "anchors": ["truthdiscovery/utils/iterator.py:OrdinalConvergenceIterator"]}
{"id": "C24", "title": "Runs do not depend on history", "statement": "The outcome (result or exception) of run/run_iter on an algorithm object is the same as on a freshly constructed object with the same parameters, whatever was done before with this object or with other objects sharing its iterator: earlier runs, runs that raised, partially consumed or abandoned generators.", "quantifier": "every history of operations on any number of algorithm objects sharing any iterators, any arithmetic", "why_tests_cant": "Unbounded histories and interleavings.", "anchors": ["truthdiscovery/algorithm/base.py:BaseIterativeAlgorithm.run", "truthdiscovery/algorithm/base.py:BaseIterativeAlgorithm.run_iter", "truthdiscovery/utils/iterator.py:Iterator.reset"]}
{"id": "C25", "title": "run_iter generators are isolated from each other", "statement": "However calls to next() on several run_iter generators (of the same or different objects) and calls to run are interleaved, each generator yields exactly the partial results of its own algorithm and dataset, in order, and then stops. The computation happens at the first next(), not at creation.", "quantifier": "every interleaving of creations, next() and run calls", "why_tests_cant": "All interleavings.", "anchors": ["truthdiscovery/algorithm/base.py:BaseIterativeAlgorithm.run_iter", "truthdiscovery/algorithm/base.py:BaseIterativeAlgorithm.log"]}
{"id": "C26", "title": "run_iter ends with what run returns", "statement": "run_iter raises iff run raises; otherwise its last element has the trust, belief and iteration count of the Result of run (for all algorithms that log their initial state and do not post-process, i.e. all but UnboundedSums, whose run returns the ranking of the last element, and CRH with zero iterations, which yields nothing). The k-th element has iterations = k (CRH: k+1).", "quantifier": "every dataset, configuration and arithmetic", "why_tests_cant": "All executions.", "anchors": ["truthdiscovery/algorithm/base.py:BaseIterativeAlgorithm.run_iter", "truthdiscovery/algorithm/unboundedsums.py:UnboundedSums._run", "truthdiscovery/algorithm/crh.py:CRH._run"]}
{"id": "C27", "title": "Longer runs extend shorter ones", "statement": "With fixed iteration counts n <= m the partial results of the n-run are the first partial results of the m-run.", "quantifier": "every dataset, algorithm, n <= m, any arithmetic", "why_tests_cant": "All lengths.", "anchors": ["truthdiscovery/algorithm/base.py:BaseIterativeAlgorithm.run_iter", "truthdiscovery/utils/iterator.py:FixedIterator"]}
{"id": "C28", "title": "Prior beliefs", "statement": "FIXED gives 1/2 everywhere; COUNT the number of sources of the claim; VOTED the fraction of the variable's claiming sources that make the claim; UNIFORM one over the number of claims of the variable. VOTED and UNIFORM sum to 1 over each variable, all priors are positive, and anything else raises ValueError.", "quantifier": "every dataset and every claim (exact arithmetic)", "why_tests_cant": "All datasets.", "anchors": ["truthdiscovery/algorithm/base.py:BaseIterativeAlgorithm.get_prior_beliefs"]}
{"id": "C29", "title": "Majority voting", "statement": "Every source has trust 1, the belief in a claim is its number of sources divided by the largest such number over all claims; so beliefs are in (0, 1] and some claim has belief 1.", "quantifier": "every non-empty dataset (also for any monotone rounding of the arithmetic)", "why_tests_cant": "All datasets.", "anchors": ["truthdiscovery/algorithm/voting.py:MajorityVoting.run"]}
{"id": "C30", "title": "Sums computes the published update", "statement": "After k iterations run of Sums returns, for every source and claim label, the k-th iterate of: trust(s) = sum of the beliefs of its claims, belief(c) = sum of the trusts of its sources, each divided by its maximum.", "quantifier": "every non-empty dataset, all priors and iterators, every iteration (exact arithmetic)", "why_tests_cant": "All datasets and all iteration counts.", "anchors": ["truthdiscovery/algorithm/sums.py:Sums._run"]}
{"id": "C31", "title": "Sums scores are normalised", "statement": "After at least one iteration all Sums scores are finite numbers in [0, 1], the largest trust and the largest belief are exactly 1, and no NaN occurs.", "quantifier": "every non-empty dataset, priors, iterator, iteration; for every monotone rounding of arithmetic that represents small integers exactly (IEEE double included)", "why_tests_cant": "Rounding and all datasets.", "anchors": ["truthdiscovery/algorithm/sums.py:Sums._run"]}
{"id": "C32", "title": "AverageLog: published update, and when it breaks down", "statement": "If some source makes at least two claims, every iterate of AverageLog is the published one (trust = log(n)/n times the belief sum, both normalised by their maximum), with all scores in [0, 1]. If every source makes exactly one claim, every score after the first iteration is NaN.", "quantifier": "every non-empty dataset, priors, iterator, iteration (exact arithmetic)", "why_tests_cant": "The degenerate class of datasets is not among the tests.", "anchors": ["truthdiscovery/algorithm/average_log.py:AverageLog._run"]}
{"id": "C33", "title": "Investment computes the published update", "statement": "As long as no claim's investment is zero, every iterate of Investment is the published one (with the trust shared equally among a source's claims, returns proportional to the share of the claim's investment, growth x^g, both normalised), with scores in [0, 1]; in exact arithmetic investments never become zero, so it never finishes early.", "quantifier": "every non-empty dataset, priors, iterator, g (exact arithmetic)", "why_tests_cant": "All datasets and iterations.", "anchors": ["truthdiscovery/algorithm/investment.py:Investment"]}
{"id": "C34", "title": "PooledInvestment computes the published update", "statement": "Every iterate of PooledInvestment is the published one: belief = H * H^g / sum over the variable's claims of H^g, normalised; scores lie in [0, 1].", "quantifier": "every non-empty dataset, priors, iterator, g (exact arithmetic)", "why_tests_cant": "All datasets and iterations.", "anchors": ["truthdiscovery/algorithm/pooled_investment.py:PooledInvestment._run"]}
{"id": "C35", "title": "TruthFinder computes the published update", "statement": "Every iterate of TruthFinder is tau = -ln(1-t), sigma*(c) = sum over sources of c of tau + rho * sum over other claims c' of the variable imp(c' -> c) * sigma(c'), belief = 1/(1+exp(-gamma sigma*)), trust = mean belief of the source's claims. Beliefs and later trusts are strictly between 0 and 1, so in exact arithmetic it never finishes early; without implications (and with gamma >= 0) beliefs are >= 1/2.", "quantifier": "every non-empty dataset with implications, all parameters with initial trust in [0, 1) (exact arithmetic)", "why_tests_cant": "All datasets, parameters and iterations.", "anchors": ["truthdiscovery/algorithm/truth_finder.py:TruthFinder"]}
{"id": "C36", "title": "CRH", "statement": "For eps > 0 every iterate of CRH is the published one: weight = eps - ln(loss / total loss) with loss = eps + squared deviation of the beliefs from the source's claims over its variables; weights are >= eps, beliefs are the weight fraction of the claim's sources, lie in [0, 1], and sum to at most 1 over a variable (exactly 1 iff all sources claim about it).", "quantifier": "every non-empty dataset, eps > 0, iteration (exact arithmetic)", "why_tests_cant": "All datasets and iterations.", "anchors": ["truthdiscovery/algorithm/crh.py:CRH._run"]}
{"id": "C37", "title": "UnboundedSums result is the ranking of unnormalised sums", "statement": "When UnboundedSums ends, the returned trust and belief are the dense ranks of the k-th unnormalised iterates trust(s) = sum of beliefs, belief(c) = sum of trusts starting from source counts (the occasional division by 1000 never changes the outcome).", "quantifier": "every non-empty dataset (exact arithmetic)", "why_tests_cant": "All datasets; scale-invariance must hold for every iteration.", "anchors": ["truthdiscovery/algorithm/unboundedsums.py:UnboundedSums._run"]}
{"id": "C38", "title": "UnboundedSums terminates", "statement": "With its default iterator (or any threshold) run of UnboundedSums terminates on every non-empty dataset: the ranking of the trust vector eventually stops changing.", "quantifier": "every non-empty dataset, every threshold (exact arithmetic)", "why_tests_cant": "Termination for all inputs; the loop has no iteration bound.", "anchors": ["truthdiscovery/algorithm/unboundedsums.py:UnboundedSums._run", "truthdiscovery/utils/iterator.py:OrdinalConvergenceIterator"]}
{"id": "C39", "title": "Sums converges", "statement": "The Sums iterates converge on every non-empty dataset, so with L1, L2 or L_INF convergence and any positive threshold there is a limit with which run succeeds instead of raising ConvergenceError.", "quantifier": "every non-empty dataset and threshold > 0 (exact arithmetic)", "why_tests_cant": "Limit behaviour for all inputs.", "anchors": ["truthdiscovery/algorithm/sums.py:Sums._run", "truthdiscovery/utils/iterator.py:ConvergenceIterator"]}
{"id": "C40", "title": "Order of the input does not matter", "statement": "Permuting the triples of a dataset does not change the trust and belief reported for any source and claim, nor iterations or the most believed values, for any algorithm (exact arithmetic).", "quantifier": "every dataset without duplicate claims, every permutation, every algorithm", "why_tests_cant": "All permutations of all inputs.", "anchors": ["truthdiscovery/input/dataset.py:Dataset.__init__", "truthdiscovery/algorithm/"]}
{"id": "C41", "title": "Renaming equivariance", "statement": "Renaming sources, variables and values injectively renames the result and changes no score, no exception and no iteration count.", "quantifier": "every dataset, injective renaming, algorithm configuration; any arithmetic (floating point included)", "why_tests_cant": "All renamings.", "anchors": ["truthdiscovery/input/dataset.py:Dataset.__init__", "truthdiscovery/algorithm/"]}
{"id": "C42", "title": "Dominance / unanimity", "statement": "If every source of claim c is also a source of claim c', then belief(c) <= belief(c') in the result of Voting, Sums, AverageLog, Investment (g >= 0), CRH (eps > 0), UnboundedSums, and of TruthFinder when there are no implications and gamma >= 0; in particular a claim made by all sources has maximal belief. With Sums and UnboundedSums a source that makes all the claims of another one has at least as much trust. (PooledInvestment does not have this property across variables.)", "quantifier": "every non-empty dataset, every pair of claims, every number of iterations >= 1", "why_tests_cant": "All datasets.", "anchors": ["truthdiscovery/algorithm/"]}
{"id": "C43", "title": "Most believed values", "statement": "get_most_believed_values yields exactly the values of the variable whose belief is maximal, each once, in dictionary order; at least one when the variable has values; KeyError for unknown variables, IndexError when it has no values.", "quantifier": "every result with number-valued (non-NaN) beliefs and every variable", "why_tests_cant": "All belief dictionaries, all tie patterns.", "anchors": ["truthdiscovery/output/result.py:Result.get_most_believed_values"]}
{"id": "C44", "title": "Filtering", "statement": "filter keeps exactly the requested known sources/variables with their scores (all of them for None), ignores unknown ones, keeps time and iterations; it is idempotent, and filtering by A then B equals filtering by the members of B that are in A.", "quantifier": "every result and every iterables of labels", "why_tests_cant": "All results and filter sets.", "anchors": ["truthdiscovery/output/result.py:Result.filter", "truthdiscovery/utils/__init__.py:filter_dict"]}
{"id": "C45", "title": "Filtered results are copies", "statement": "Mutating the dictionaries of a filtered result never changes the original. (Holds for trust and for belief when no variable filter is given; refuted for the inner dictionaries when variables is given, which are shared.)", "quantifier": "every result, filter arguments and mutation", "why_tests_cant": "Aliasing under all later mutations.", "anchors": ["truthdiscovery/output/result.py:Result.filter"]}
{"id": "C46", "title": "Statistics", "statement": "get_trust_stats/get_belief_stats give the mean and the population standard deviation; the mean lies between the smallest and largest score, stddev >= 0, and is 0 iff all scores are equal; get_belief_stats covers exactly the variables of the result.", "quantifier": "every result with non-empty score dictionaries (exact arithmetic)", "why_tests_cant": "All dictionaries.", "anchors": ["truthdiscovery/output/result.py:Result.get_trust_stats", "truthdiscovery/output/result.py:Result.get_belief_stats"]}
{"id": "C47", "title": "ResultDiff", "statement": "The diff has exactly the common sources, and the common (variable, value) pairs, each with the second minus the first score, no variable with an empty dictionary, and iterations iff both have them. Diff of a result with itself is zero; swapping the arguments negates it; diffs add up along a chain of results over the same keys.", "quantifier": "every pair/triple of results (exact arithmetic for the algebraic laws)", "why_tests_cant": "All pairs of results.", "anchors": ["truthdiscovery/output/diff.py:ResultDiff"]}
{"id": "C48", "title": "Iterator specifications", "statement": "get_iterator accepts exactly the strings fixed-<digits> and <measure>-convergence-<threshold>[-limit-<digits>] (threshold a number without '-'), with a limit of at most max_limit, and builds the described iterator; every other string raises ValueError. Hence no iterator obtained by a client performs more than 200 iterations.", "quantifier": "every string, every max_limit and every number parser", "why_tests_cant": "All strings; a resource limit for untrusted input.", "anchors": ["truthdiscovery/client/base.py:BaseClient.get_iterator"]}
{"id": "C49", "title": "Algorithm parameters", "statement": "algorithm_parameter splits at the first '=', strips both sides, parses iterator/priors/number by key, and raises ValueError exactly if there is no '=' or the value does not parse.", "quantifier": "every string and number parser", "why_tests_cant": "All strings.", "anchors": ["truthdiscovery/client/base.py:BaseClient.algorithm_parameter"]}
{"id": "C50", "title": "Parameters are passed or reported, never lost", "statement": "get_algorithm_params splits any parameter dictionary into those accepted by the algorithm's constructor and an ignored set: disjoint, together everything, values unchanged; constructing the algorithm with the first part never raises TypeError.", "quantifier": "every algorithm of the client and every parameter dictionary (for the construction: with values of the kinds algorithm_parameter returns)", "why_tests_cant": "All dictionaries.", "anchors": ["truthdiscovery/client/base.py:BaseClient.get_algorithm_params", "truthdiscovery/algorithm/base.py:BaseAlgorithm.get_parameter_names"]}
{"id": "C51", "title": "Output object", "statement": "get_output_obj contains exactly the requested fields (all if none requested), except accuracy, which appears iff supervised data is given; each holds the corresponding value of the result; missing accuracy becomes None rather than an error.", "quantifier": "every result, list of fields and supervised data", "why_tests_cant": "All combinations.", "anchors": ["truthdiscovery/client/base.py:BaseClient.get_output_obj"]}
{"id": "C52", "title": "Web requests get a JSON answer", "statement": "Every GET to /run/ produces {ok: true, data} or {ok: false, error} with status 400/500 as documented, and never an unhandled exception; requests are independent of earlier ones. (False: UnboundedSums with a client-supplied iterator and AverageLog with one claim per source raise outside the handlers. Proved: the exact status for requests whose algorithms are not affected.)", "quantifier": "every combination of request parameters", "why_tests_cant": "All requests, all datasets.", "anchors": ["truthdiscovery/client/web/server.py:WebClient.run"]}
{"id": "C53", "title": "Graph layout", "statement": "Rendering places all node centres inside the canvas at distance at least node_radius from the borders (width >= 2*node_radius), nodes of the same kind (sources, claims) at least 2*node_radius + spacing apart, in the order of their labels.", "quantifier": "every dataset and every renderer with non-negative sizes (exact arithmetic)", "why_tests_cant": "All dataset sizes.", "anchors": ["truthdiscovery/graphs/draw.py:GraphRenderer"]}
{"id": "C54", "title": "The drawing shows the dataset exactly", "statement": "compile yields one background, then exactly one edge (line plus two arrow lines) per source-claim pair and per claim, one node per source, claim and variable, and the progress bar iff requested, in this order: edges of a node before the node.", "quantifier": "every dataset, renderer and progress", "why_tests_cant": "All datasets.", "anchors": ["truthdiscovery/graphs/draw.py:GraphRenderer.compile"]}
{"id": "C55", "title": "Rendering is history independent", "statement": "render produces the same picture for a dataset whatever was rendered before. (For a direct call of compile this fails: it reuses the previous height; refuted by example.)", "quantifier": "every history of render calls", "why_tests_cant": "Unbounded histories.", "anchors": ["truthdiscovery/graphs/draw.py:GraphRenderer.render", "truthdiscovery/graphs/draw.py:GraphRenderer.compile"]}
{"id": "C56", "title": "Score colours", "statement": "get_graded_colours picks one of the 9 colours for every level >= 0, monotonically, the first for 0, the last for level >= 8/9, with dark label exactly below 0.5; NaN raises ValueError.", "quantifier": "every level (exact arithmetic)", "why_tests_cant": "A continuum of levels.", "anchors": ["truthdiscovery/graphs/colours.py:ResultsGradientColourScheme.get_graded_colours"]}
{"id": "C57", "title": "Animations", "statement": "get_frames yields one frame per partial result; the progress fractions start at 0, end at 1 and increase strictly. (With zero iterations and show_progress the code divides by zero: proved exactly when.)", "quantifier": "every algorithm, dataset and number of iterations", "why_tests_cant": "All lengths; the zero-iteration corner is untested.", "anchors": ["truthdiscovery/graphs/animation.py:BaseAnimator.get_frames"]}
{"id": "C58", "title": "JSON drawing backend keeps every entity", "statement": "draw_entities writes the given width and height and one object per entity in order, with its type name and every attribute, nested labels included, so the entities can be read back.", "quantifier": "every list of entities", "why_tests_cant": "All entity lists.", "anchors": ["truthdiscovery/graphs/backends/json_backend.py:JsonBackend"]}
{"id": "C59", "title": "Labels stay inside the image", "statement": "The PNG backend draws a label that fits the image width fully inside [0, width], centred on its node when possible.", "quantifier": "every label width, position and image width", "why_tests_cant": "A continuum of positions.", "anchors": ["truthdiscovery/graphs/backends/png_backend.py:PngBackend.draw_label"]}
{"id": "C60", "title": "Reported time", "statement": "The time_taken of a result is the clock reading after the computation minus the reading before it; with a clock that does not go back it is a non-negative number, and the times of the partial results of run_iter never decrease.", "quantifier": "every algorithm, dataset, clock history and rounding", "why_tests_cant": "All clocks; tests only check that a number is there.", "anchors": ["truthdiscovery/algorithm/base.py:BaseIterativeAlgorithm.run", "truthdiscovery/algorithm/base.py:BaseIterativeAlgorithm.log", "truthdiscovery/algorithm/voting.py:MajorityVoting.run"]}
{"id": "C61", "title": "Arrow heads", "statement": "Every edge is drawn as the straight line between the two node centres and two arrow lines of length 10 that start where the line enters the circle of the target node and form an angle of pi/7 with it, one on either side.", "quantifier": "every pair of distinct node positions, every non-negative node radius", "why_tests_cant": "A continuum of positions.", "anchors": ["truthdiscovery/graphs/draw.py:GraphRenderer.compile_edge"]}
{"id": "C62", "title": "PNG backend paints exactly the entities", "statement": "Interpreting the drawing calls made by the PNG backend with a stateful context (current colour, path, line width, dash pattern) gives exactly the given entities in order, each with its own colour, width and dash pattern, whatever was drawn before; a colour that is used but is not RGB or RGBA raises TypeError (ValueError for the box behind a label wider than its node), for the first such entity; the colour schemes of the library always give proper colours.", "quantifier": "every list of entities, all colours", "why_tests_cant": "All lists; state leaks from one entity to the next only for some orders.", "anchors": ["truthdiscovery/graphs/backends/png_backend.py:PngBackend"]}
{"id": "C63", "title": "Well configured algorithms only fail by not converging", "statement": "On a non-empty dataset, an algorithm with sensible parameters (finite numbers; AverageLog: some source with two claims; TruthFinder: initial trust in [0, 1); CRH: eps > 0; UnboundedSums: its own kind of iterator) raises no exception but ConvergenceError, and that only with a ConvergenceIterator; all scores of all partial results are finite and not negative.", "quantifier": "every non-empty dataset, every such configuration, every iterator (exact arithmetic)", "why_tests_cant": "All datasets and numbers of iterations.", "anchors": ["truthdiscovery/algorithm/base.py:BaseIterativeAlgorithm.run"]}
{"id": "C64", "title": "Labels in drawings of matrix datasets", "statement": "MatrixDatasetGraphRenderer labels rows s<number>, columns v<number> and claims v<number>=<value> (numbers from 0 or 1, integral values without .0); different nodes never get the same label.", "quantifier": "every matrix dataset", "why_tests_cant": "All pairs of nodes.", "anchors": ["truthdiscovery/graphs/draw.py:MatrixDatasetGraphRenderer"]}
{"id": "C65", "title": "Command run", "statement": "The command run reports a usage error (exit status 2) exactly if an option value is not proper or the accuracy is requested without --supervised; otherwise it warns about exactly the parameters an algorithm does not have, runs the algorithms in order on the matrix of the file (without its first row, which holds the true values, if supervised) with the given parameters, and prints for each algorithm exactly the requested fields of its result, restricted to the requested sources and variables; an exception of the loader or of an algorithm ends the command without output.", "quantifier": "every list of option values, file content, clock and random choice, every rounding", "why_tests_cant": "All command lines and files.", "anchors": ["truthdiscovery/client/cli.py:CommandLineClient.run_algorithm", "truthdiscovery/client/cli.py:CommandLineClient.get_parser"]}
{"id": "C66", "title": "Command synth", "statement": "The command synth reports a usage error exactly if an option is not a number or the arguments are invalid; otherwise the printed text, read back as supervised data, has one row per trust score, the requested (or default) number of variables and values, and respects the trust scores 0 and 1; no exception escapes.", "quantifier": "every list of option values and every outcome of the random generator (exact arithmetic; C78 in double precision)", "why_tests_cant": "All random outcomes.", "anchors": ["truthdiscovery/client/cli.py:CommandLineClient.generate_synthetic"]}
{"id": "C67", "title": "Command graph", "statement": "The command graph reports a usage error exactly if a size is not an integer or the file is not a matrix; otherwise the image is the drawing of the matrix with the requested (or default) sizes and numbering; no exception escapes from loading and composing it.", "quantifier": "every list of option values and file content", "why_tests_cant": "All files.", "anchors": ["truthdiscovery/client/cli.py:CommandLineClient.generate_graph", "truthdiscovery/client/cli.py:CommandLineClient.get_graph_renderer"]}
{"id": "C68", "title": "Indistinguishable sources and claims get equal scores", "statement": "If renaming sources, variables and values (per variable) leaves the set of claims as it is, a source and its image get the same trust, a claim and its image the same belief; in particular two sources that make the same claims get the same trust.", "quantifier": "every dataset and symmetry, every well configured algorithm and voting, every partial result (exact arithmetic)", "why_tests_cant": "All symmetries of all datasets.", "anchors": ["truthdiscovery/algorithm/base.py:BaseIterativeAlgorithm.run", "truthdiscovery/algorithm/base.py:BaseIterativeAlgorithm.run_iter", "truthdiscovery/algorithm/voting.py:MajorityVoting.run"]}
{"id": "C69", "title": "The iterator only decides when to stop", "statement": "The partial results of one algorithm with two different iterators agree as long as both last; a run that took n iterations is repeated exactly by FixedIterator(n) (UnboundedSums, which needs its own kind of iterator, excepted); with a larger threshold and at least the same limit a converging run still converges, after at most as many iterations.", "quantifier": "every dataset, algorithm, pair of iterators, measure, threshold and rounding", "why_tests_cant": "All thresholds and iteration counts.", "anchors": ["truthdiscovery/utils/iterator.py:ConvergenceIterator.finished", "truthdiscovery/utils/iterator.py:FixedIterator", "truthdiscovery/algorithm/base.py:BaseIterativeAlgorithm.run_iter"]}
{"id": "C70", "title": "Independent parts do not influence each other", "statement": "On a union of connected components, the scores of Sums, AverageLog, Investment, PooledInvestment and voting are those of running on the part alone for the same number of iterations, up to one positive factor for trust and one for belief; for TruthFinder they are the same. UnboundedSums needs at most as many iterations on the part alone as on the whole dataset, and ranks the part in the same way if it needs as many. CRH is an exception: unrelated sources can reverse the order of trust.", "quantifier": "every dataset, every part, every number of iterations (exact arithmetic)", "why_tests_cant": "All datasets and parts.", "anchors": ["truthdiscovery/algorithm/sums.py:Sums._run", "truthdiscovery/algorithm/average_log.py:AverageLog._run", "truthdiscovery/algorithm/investment.py:Investment._run", "truthdiscovery/algorithm/pooled_investment.py:PooledInvestment._run", "truthdiscovery/algorithm/truth_finder.py:TruthFinder._run", "truthdiscovery/algorithm/voting.py:MajorityVoting.run"]}
{"id": "C71", "title": "AverageLog converges", "statement": "On every dataset in which some source makes two claims the scores of AverageLog converge, and a run with a ConvergenceIterator of any measure and positive threshold succeeds if the limit is large enough.", "quantifier": "every such dataset, prior, measure and positive threshold (exact arithmetic)", "why_tests_cant": "A limit statement.", "anchors": ["truthdiscovery/algorithm/average_log.py:AverageLog._run", "truthdiscovery/utils/iterator.py:ConvergenceIterator"]}
{"id": "C72", "title": "Datasets read from files", "statement": "A FileDataset is the Dataset of the tuples its get_tuples yields, and an exception of get_tuples always makes the constructor raise; for a FileSupervisedData the last pair of a variable counts; a tab separated file is never rejected for its content, and exactly the lines without a tab are skipped and reported; the stock example yields exactly the claims its rows state, and fails for every row that is too short.", "quantifier": "every file content, every get_tuples and get_pairs", "why_tests_cant": "All files.", "anchors": ["truthdiscovery/input/file_helpers.py:FileDataset", "truthdiscovery/input/file_helpers.py:FileSupervisedData", "truthdiscovery/examples/real-world-datasets"]}
{"id": "C73", "title": "Editing the matrix in the browser", "statement": "Every action in the form has exactly its effect on the entries and the shape; whatever the user does, the matrix stays rectangular and non-empty and no action fails; every non-empty matrix can be entered by hand, starting from any other; the text sent is read back by the server as the same matrix (with one column: without empty rows at the ends).", "quantifier": "every history of actions and every matrix", "why_tests_cant": "All histories of user actions.", "anchors": ["truthdiscovery/client/web/static/app/matrix.js:Matrix", "truthdiscovery/client/web/static/app/app.js"]}
{"id": "C74", "title": "Requests of the form and their answers", "statement": "The parameters sent are those of the text field followed by the iterator chosen in the form, which wins; for a matrix with two columns and an entry, valid iteration settings and any algorithms except UnboundedSums (AverageLog: some row with two entries) the server answers with the results of exactly these algorithms, or with status 500 for lack of convergence; what the browser keeps of an answer is accepted by the server as previous results. With UnboundedSums and a fixed number of iterations the server raises AttributeError.", "quantifier": "every matrix, selection of algorithms, settings and history of requests", "why_tests_cant": "All forms.", "anchors": ["truthdiscovery/client/web/static/app/app.js", "truthdiscovery/client/web/server.py:run"]}
{"id": "C75", "title": "Animations in the browser", "statement": "After a non-empty animation is loaded the frame shown always exists, the keys move by one frame and stop at both ends; no action fails unless an animation without frames is loaded.", "quantifier": "every history of key presses and loads", "why_tests_cant": "All histories.", "anchors": ["truthdiscovery/client/web/static/app/animator.js:Animator"]}
{"id": "C76", "title": "Scores and exceptions however numbers are rounded", "statement": "After at least one iteration every source and claim has a score and each score is NaN or in range: in [0, 1] for Sums, AverageLog, Investment, PooledInvestment, voting and the beliefs of TruthFinder (and of CRH, if numpy adds as many numbers as there are sources from left to right), not negative otherwise. Investment with g = 0 gives every claim belief 1. With a valid prior and a fixed or convergence iterator nothing but ConvergenceError is raised on a non-empty dataset. NaN does occur: Investment(g=2) with its default iterator reports it for a dataset of three claims. Beliefs of CRH above 1 do occur: since numpy adds eight numbers pairwise, eight agreeing sources get belief 1 + 2^-52 for some eps.", "quantifier": "every dataset, parameters, implication function, iterator, monotone rounding and order in which numpy adds, faithful log, exp and pow", "why_tests_cant": "All datasets, roundings and summation orders.", "anchors": ["truthdiscovery/algorithm/base.py:BaseIterativeAlgorithm.run", "truthdiscovery/algorithm/investment.py:Investment._run", "truthdiscovery/algorithm/crh.py:CRH._run", "truthdiscovery/algorithm/truth_finder.py:TruthFinder._run", "truthdiscovery/algorithm/voting.py:MajorityVoting.run"]}
{"id": "C77", "title": "Exactly which web requests escape with an exception", "statement": "A request to the web server is not answered (an exception escapes) exactly if its inputs are proper and, at the first algorithm that fails or escapes, the algorithm raises something other than ConvergenceError and EmptyDatasetError, or a score of the result or of a partial result has no colour (9 times the score is NaN: ValueError, infinite: OverflowError, at most -10: IndexError), or previous_results is complete JSON that cannot be compared with the result (TypeError or AttributeError). The first case happens only for UnboundedSums: AttributeError with an iterator given by the client, a run that never ends with its own (and with voted priors where counts are not exact). A score in [0, 1] or NaN only fails if it is NaN.", "quantifier": "every request, environment and rounding", "why_tests_cant": "All requests.", "anchors": ["truthdiscovery/client/web/server.py:run", "truthdiscovery/client/web/server.py:get_results_object", "truthdiscovery/graphs/draw.py:GraphRenderer", "truthdiscovery/output/diff.py:ResultDiff"]}
{"id": "C78", "title": "Synthetic data in double precision", "statement": "With the rounding of IEEE doubles and at most 2^50 values, SyntheticData still succeeds for all valid parameters (the sampler's check that the weights sum to 1 never fails), raises ValueError for all others, and its result has the shape, coverage and truthfulness of exact arithmetic; it can be exported and read back, also with the command synth. Each value of the domain is drawn for the random numbers of one interval, and the boundaries of these intervals differ from those of exact arithmetic by at most (4*domain_size + 14)/2^53. With any other sensible rounding a value drawn is in the domain and has positive weight.", "quantifier": "every parameters with domain_size <= 2^50 and every random draws", "why_tests_cant": "All parameters and random outcomes; rounding errors add up over the domain.", "anchors": ["truthdiscovery/input/synthetic_data.py:SyntheticData.__init__", "truthdiscovery/input/synthetic_data.py:SyntheticData.generate_claim", "truthdiscovery/client/cli.py:CommandLineClient.generate_synthetic"]}
{"id": "C79", "title": "TruthFinder in double precision", "statement": "With IEEE doubles a trust score of TruthFinder is, after at least one iteration, NaN or between 0 and 1 + n * 2^-52 for a source with n claims (n <= 2^52). The bound 1 itself does not hold: without implications and with the default parameters, if every claim is made by at least 100 sources, every source with nine claims has trust 1 + 2^-52 after one iteration (all beliefs are exactly 1) and NaN after two or more, although trust 1 is supposed to end the run early.", "quantifier": "every dataset and implication function, all parameters, every iterator, and log, exp and pow with any relative error up to 2^-55 before the final rounding", "why_tests_cant": "Rounding errors of sums over all datasets.", "anchors": ["truthdiscovery/algorithm/truth_finder.py:TruthFinder._run", "truthdiscovery/algorithm/truth_finder.py:TruthFinder.get_log_trust"]}
{"id": "C80", "title": "Trust and belief are coherent", "statement": "If the sources of one claim can be paired off with those of another such that no source is more trusted than its partner and one is less trusted, then Sums, AverageLog, CRH and UnboundedSums give the first claim less belief, after any positive number of iterations. If the claims of one source can be paired off with those of another in the same way, TruthFinder gives the first source less trust, and so does UnboundedSums for every large enough threshold. The limits of Sums and (for sources with two claims) AverageLog have both properties. Sums stopped after one iteration need not be coherent for sources.", "quantifier": "every dataset and pair of claims or sources, every well configured algorithm, every number of iterations (exact arithmetic)", "why_tests_cant": "All datasets and pairings; a limit statement.", "anchors": ["truthdiscovery/algorithm/sums.py:Sums._run", "truthdiscovery/algorithm/average_log.py:AverageLog._run", "truthdiscovery/algorithm/crh.py:CRH._run", "truthdiscovery/algorithm/truth_finder.py:TruthFinder._run", "truthdiscovery/algorithm/unboundedsums.py:UnboundedSums._run"]}
{"id": "C81", "title": "What the browser draws", "statement": "For every JSON picture with proper sizes and colours the browser's canvas ends up with the size of the picture and shows exactly its entities, in their order, whatever was drawn before: the same as the PNG image of the picture, except that dashes and transparency are lost and texts are measured by the browser. Pictures of datasets in the default colours and in those of a result lose nothing. After a non-empty animation is loaded the canvas always shows exactly the current frame: keys and buttons move by one and stop at both ends, the slider goes to the frame chosen. An animation without frames makes the browser fail.", "quantifier": "every picture and animation, every earlier state of the canvas and every history of user actions", "why_tests_cant": "All pictures and histories.", "anchors": ["truthdiscovery/client/web/static/app/graph_drawer.js:GraphDrawer", "truthdiscovery/client/web/static/app/animator.js:Animator", "truthdiscovery/graphs/backends/json_backend.py"]}
{"id": "C82", "title": "The page with the results", "statement": "Whatever the user does and however requests end, there is at most one request in flight; the page is loading exactly while there is one, then shows results if the last request succeeded and an error otherwise. The results kept, their tab and the messages are those of the last successful request, the results to compare with too if it was for one algorithm (none otherwise); for each algorithm the graph is the last one received and the animation stands at an existing frame of the last one received. The tables show every source with its trust and every claim with its belief exactly once, sorted as the clicks on the columns say (as texts, so 11 comes before 3), the largest scores in bold, with differences to the earlier scores (from 1000 on: NaN). All answers of the server can be shown in this way, except for CRH with 0 iterations: then the page breaks.", "quantifier": "every history of requests, answers, failures and user actions; every answer and dataset", "why_tests_cant": "All histories of events on the page, all datasets.", "anchors": ["truthdiscovery/client/web/static/app/app.js", "truthdiscovery/client/web/static/app/templates/results.html", "truthdiscovery/client/web/server.py:run"]}
{"id": "C83", "title": "AverageLog and CRH in double precision", "statement": "In IEEE double precision: if some source makes at least two claims (and sources^2 * claims <= 2^53), AverageLog never shows NaN: after at least one iteration all trust and belief scores are finite numbers in [0, 1], with the largest trust and the largest belief exactly 1, in results and in partial results, and a run with a fixed number of iterations succeeds. If every source makes one claim only, every score is NaN instead. CRH with 2^-60 <= eps <= 1 (the default 1e-5 is such a number; sources * claims^2 <= 2^50) never shows NaN or infinity: trust scores are between eps and 128, belief scores between 0 and 1 + n * 2^-50 for n sources, and at most 1 if numpy adds n numbers from left to right. All of this whatever the order in which numpy adds.", "quantifier": "all datasets within the size bounds, all priors, iterators, numbers of iterations, eps, clocks, and log, exp and pow with any relative error up to 2^-55 before the final rounding", "why_tests_cant": "Whether a score over- or underflows depends on the whole dataset and on every intermediate rounding; tests try a few datasets.", "anchors": ["truthdiscovery/algorithm/average_log.py:AverageLog", "truthdiscovery/algorithm/crh.py:CRH"]}
{"id": "C84", "title": "Debug output and the convergence experiment", "statement": "ConvergenceIterator(debug=True) never changes what run() returns or raises. With any algorithm but UnboundedSums it prints one line 'k,x' per iteration, in order, where x is the distance between the trust scores of iterations k-1 and k (those that run_iter returns, whatever iterator it uses); there are as many lines as the result reports iterations, max(limit, 0) if ConvergenceError is raised, and only the last line can show a distance below the threshold. examples/convergence_test.py therefore draws, for every non-empty CSV file, five curves of exactly 100 points (iterations 1..100) whose values are these L2 distances; points are missing exactly after the last iteration made with FixedIterator(100), and none is missing for Sums and AverageLog; it never fails except on a file without claims (EmptyDatasetError).", "quantifier": "every dataset, algorithm, measure, threshold and limit, any arithmetic; the experiment: every CSV file and any rounding", "why_tests_cant": "The output is checked by no test (the line is excluded from coverage) and depends on the whole history of the run.", "anchors": ["truthdiscovery/utils/iterator.py:ConvergenceIterator.compare", "truthdiscovery/examples/convergence_test.py:main"]}
{"id": "C85", "title": "Distance measures in double precision", "statement": "In IEEE double precision, whatever the order in which numpy adds and whether it fuses multiplications with additions, get_distance is symmetric bit for bit (whatever the vectors contain, also NaN and infinities), never negative (it may be NaN), for the cosine measure at most 1; L1, L2 and L_INF distances of a vector of finite numbers from itself are exactly 0. For doubles of magnitude up to 2^400 and n <= 2^40 entries no distance overflows, L1, L2 and L_INF differ from the exact distance by at most (n + 2) 2^-51 relatively plus 2^-500, the cosine distance by at most (n + 2) 2^-48 (unless a non-zero vector has norm below 2^-400), and L1 and L_INF are 0 only for equal vectors; L2 and cosine can underflow (2^-1024 against 0 has L2 distance 0, cosine distance 1 from itself). Hence for Sums and AverageLog a run ends only if the exact distance of the last two trust vectors is below the threshold, and goes on only if it is not (for all four measures), up to these errors; with a threshold that is not positive Sums, AverageLog and CRH always raise ConvergenceError.", "quantifier": "all vectors (symmetry, range), all vectors of moderate doubles (accuracy), all datasets within sources^2 * claims <= 2^53, priors, thresholds, limits", "why_tests_cant": "rounding errors depend on every bit of the input; tests compare a few vectors with a tolerance", "anchors": ["truthdiscovery/utils/iterator.py:ConvergenceIterator.get_distance", "truthdiscovery/utils/iterator.py:ConvergenceIterator.finished"]}
{"id": "C86", "title": "From the words of the command line to the command", "statement": "The words after the program's name have at most one reading as options with values: an option by its name or an unambiguous beginning of a long name, its values in the following words, after '=' or attached to a one-letter option, flags written together. A command line 'run ...', 'synth ...' or 'graph ...' that has a reading with all required options, in which every value given (also one replaced later) is acceptable and no help is asked for, does what the command does with these option values, the last occurrence of each option counting; every other one prints a usage message or the help text and nothing else. No words, or -h first, print the help text; options cannot precede the command; an unknown command is a usage error; httpd takes no arguments. No command line changes files except that graph empties or creates the files named with -o (each the end of a word after 'graph'), as soon as the option is read; if the output file is also the dataset, the data are lost.", "quantifier": "every list of words, every set of files, every environment", "why_tests_cant": "All command lines; tests try a few.", "anchors": ["truthdiscovery/client/cli.py:CommandLineClient.get_parser", "truthdiscovery/client/cli.py:CommandLineClient.run", "truthdiscovery/client/cli.py:main"]}
{"id": "C87", "title": "One more supporter of a claim", "statement": "A new source joins the dataset and makes one claim, which others already make.  Voting: the belief in that claim does not fall, rises if it was below 1, and no other belief rises.  Sums: the belief to which it converges does not fall (and rises if strictly between 0 and 1), and the claim then beats every claim it beat or equalled before; so runs with sufficiently many iterations lose less than any given amount.  TruthFinder with non-negative damping, influence and implications: for the same number of iterations no belief and no trust of an old source falls, and the belief in the claim rises.  AverageLog (fixed or uniform priors, some source making at least two claims) gives the same scores as before in the same number of iterations, and trust 0 to the new source.  PooledInvestment and Investment are exceptions: with PooledInvestment a claim can lose belief and its first place by gaining a supporter; with Investment one of two tied claims about a variable can lose belief, and fall behind the other, by gaining a supporter.", "quantifier": "all datasets, all claims and new sources, all priors and iterators; all parameters within the stated ranges (exact arithmetic)", "why_tests_cant": "compares the outcomes of two iterations on all pairs of datasets, and (for Sums) their limits; tests compare a few datasets", "anchors": ["truthdiscovery/algorithm/voting.py:MajorityVoting.run", "truthdiscovery/algorithm/sums.py:Sums._run", "truthdiscovery/algorithm/truth_finder.py:TruthFinder._run", "truthdiscovery/algorithm/average_log.py:AverageLog._run", "truthdiscovery/algorithm/pooled_investment.py:PooledInvestment._run"]}
{"id": "C88", "title": "TruthFinder settles", "statement": "In exact arithmetic, with 0 <= initial_trust < 1 and a damping factor that is not negative: (a) without implications (no implication function, or influence 0) the squares of the changes of the beliefs after the first iteration add up to at most gamma n (-log(1 - t0)/2 + 1 - t0), n the number of recorded triples, whatever the number of iterations; so a run with a ConvergenceIterator of any measure and positive threshold th succeeds within |S|^2 gamma n (-log(1 - t0)/2 + 1 - t0)/th^2 + 2 iterations if its limit allows them. (b) If initial_trust is at most 1/2 and neither the influence nor any implication is negative, scores never fall from one iteration to the next, they converge to values in [1/2, 1], and such a run succeeds if its limit is large enough for the dataset.", "quantifier": "every non-empty dataset, all parameters as stated, every distance measure and positive threshold, every limit, any prior state of the iterator", "why_tests_cant": "whether an iteration settles is a statement about infinitely many iterations of every dataset; tests see single datasets for a few iterations, and the failure is an exception (maximum number of iterations) that a test with a generous limit does not produce", "anchors": ["truthdiscovery/algorithm/truth_finder.py:TruthFinder._run", "truthdiscovery/utils/iterator.py:ConvergenceIterator"]}
{"id": "C89", "title": "CRH lowers its objective", "statement": "In exact arithmetic, with eps > 0, on a dataset in which every source makes a claim about every variable: the weighted loss sum_s trust(s) (eps + squared distance of the beliefs from the claims of s) never rises from one iteration to the next (after the first); the reported beliefs are the only ones that minimise it for the reported trust, which satisfies sum_s exp(eps - trust(s)) = 1; and a run with a ConvergenceIterator of any measure and positive threshold succeeds if its limit is at least an explicit bound that depends only on the numbers of sources and claims, eps and the threshold. On other datasets the beliefs are not the best ones: if a claim is the only one about its variable and some source is silent about it, its belief is below 1 and belief 1 would lower the objective.", "quantifier": "all complete datasets, all eps > 0, iterators, measures, thresholds and limits; for the exception all datasets and undisputed claims", "why_tests_cant": "an optimality statement about all datasets and all alternative beliefs, and a termination statement about all runs; tests check the numbers of one small dataset", "anchors": ["truthdiscovery/algorithm/crh.py:CRH._run", "truthdiscovery/utils/iterator.py:ConvergenceIterator"]}
{"id": "C90", "title": "Investment concentrates, and settles", "statement": "In exact arithmetic Investment with exponent g >= 0 never lowers the concentration of the investments, that is the sum over the claims of the g-th power of the claim's share of all trust (each source dividing its trust equally among its claims), from one iteration to the next after the first. If g > 0, a run with a ConvergenceIterator of any measure and positive threshold th therefore succeeds within 16 n^4 (1 + 1/g) log(m)/th^2 + 2 iterations for n sources and m claims, if its limit allows them, whatever the dataset and the prior beliefs.", "quantifier": "all non-empty datasets, prior beliefs, exponents, measures, thresholds, limits and iterators", "why_tests_cant": "a monotone quantity of all executions and a termination bound for all datasets; tests run a few iterations on a small dataset", "anchors": ["truthdiscovery/algorithm/investment.py:Investment._run", "truthdiscovery/algorithm/investment.py:Investment.update_trust", "truthdiscovery/utils/iterator.py:ConvergenceIterator"]}
{"id": "C91", "title": "TruthFinder may never settle", "statement": "In exact arithmetic, take a dataset where every claimed value has exactly m sources and every variable has exactly n different claimed values, any two of which contradict each other (implication value -1), and let gamma m (rho (n - 1) - 1) >= 10 for the dampening factor gamma and influence parameter rho (for instance seventy sources with seventy different values for one variable and the default parameters), and let the initial trust lie in [0.4, 1). Then each iteration of TruthFinder changes the trust in every source by at least 0.38, for ever; so a run with a ConvergenceIterator of measure L1, L2 or Linf and threshold at most 0.38 raises ConvergenceError whatever its limit. With the cosine measure, which the default iterator uses, the same run nevertheless reports convergence, after one iteration, for any positive threshold.", "quantifier": "all such datasets, parameters, measures, thresholds and limits, and any number of iterations", "why_tests_cant": "non-convergence is a statement about all iteration counts; a test can only run up to some limit", "anchors": ["truthdiscovery/algorithm/truth_finder.py:TruthFinder._run", "truthdiscovery/utils/iterator.py:ConvergenceIterator", "truthdiscovery/utils/iterator.py:ConvergenceIterator.compare"]}
{"id": "C92", "title": "Experiments with synthetic data", "statement": "When Experiment.run of examples/synthetic_experiment.py succeeds, its result has exactly the labels of the experiment; for the i-th label and every algorithm there are reps accuracies, the j-th of all algorithms on one and the same SyntheticData, made with the i-th values of the parameters and with random numbers used for no other dataset; all accuracies are between 0 and 1. The datasets of the three experiments have 100 sources, 100 variables and the domain size, claim probability or trust values of their label. An experiment of the script can only fail because TruthFinder does not converge or because no variable of a dataset is contested (ValueError). Since the parameters are iterators kept in a class attribute, a second run of an experiment raises RuntimeError. A trust function that raises TypeError makes the experiment raise AttributeError. The script repeats ten times.", "quantifier": "every random number sequence, list of algorithms, labels, number of repetitions; every rounding where accuracies are concerned, exact arithmetic for the shape of the datasets", "why_tests_cant": "tests use a few seeds; the claim is about which dataset, parameters and random numbers stand behind each number of the table for every outcome of the generator", "anchors": ["truthdiscovery/examples/synthetic_experiment.py:Experiment.run", "truthdiscovery/examples/synthetic_experiment.py:Experiment.get_synth_params", "truthdiscovery/examples/synthetic_experiment.py:DomainSizeExperiment", "truthdiscovery/input/supervised_data.py:SupervisedData.get_accuracy"]}
{"id": "C93", "title": "The timing test", "statement": "perform_test of examples/timing_test.py returns, for exactly the algorithms of the script, one time per requested shape (n, m), in the order of the shapes: the time of a run of the algorithm on the dataset that claims exactly what the first n rows and m columns of the matrix hold, measured by that run's own two clock readings; generate_timings requests as many shapes as there are sizes on the axis of the plots.", "quantifier": "every matrix, list of shapes, list of algorithms and clock", "why_tests_cant": "a test sees a few shapes, and wall clock times cannot be predicted", "anchors": ["truthdiscovery/examples/timing_test.py:perform_test", "truthdiscovery/examples/timing_test.py:generate_timings"]}
{"id": "C94", "title": "Replicated evidence", "statement": "Take m copies of every source and n copies of every variable, each copy of a source claiming about each copy of a variable what the source claims about the variable. Voting, Sums, Investment, PooledInvestment (and AverageLog if only sources are copied, TruthFinder if only variables are) give every copy exactly the score the original gets after the same number of iterations (at least one if the prior is the number of sources); UnboundedSums also needs the same number of iterations. It is not so for AverageLog with copied variables, nor for TruthFinder and CRH with copied sources.", "quantifier": "every non-empty dataset, all m, n >= 1, every implication function, prior, iterator and number of iterations (exact arithmetic)", "why_tests_cant": "tests replicate a few datasets a few times; the statement is about all datasets, numbers of copies and iterations", "anchors": ["truthdiscovery/algorithm/sums.py:Sums._run", "truthdiscovery/algorithm/average_log.py:AverageLog._run", "truthdiscovery/algorithm/investment.py:Investment._run", "truthdiscovery/algorithm/pooled_investment.py:PooledInvestment._run", "truthdiscovery/algorithm/truth_finder.py:TruthFinder._run", "truthdiscovery/algorithm/crh.py:CRH._run", "truthdiscovery/algorithm/voting.py:MajorityVoting._run", "truthdiscovery/algorithm/unboundedsums.py:UnboundedSums._run"]}
{"id": "C95", "title": "The limits of Sums and AverageLog", "statement": "In exact arithmetic: call two sources linked if there is a chain of sources from one to the other each of which makes a claim the next one makes too (for AverageLog only sources with at least two claims count). If all sources are linked, the scores of Sums (AverageLog) tend, whatever the prior, to the same limit, which is positive exactly for the sources that count and the claims they make. In general the limit is 0 for all sources of a linked group or positive for all of them; a group disappears from Sums (all its trust and belief scores tend to 0, even if nobody disputes its claims) if elsewhere some source makes more claims, or some claim has more sources, than the claims of any source of the group are made. Without links the prior may decide the limit.", "quantifier": "every dataset with claims (for AverageLog: with a source of two claims), every prior, iterator, and enough iterations", "why_tests_cant": "limits and all numbers of iterations; tests see a few iterations of a few datasets", "anchors": ["truthdiscovery/algorithm/sums.py:Sums._run", "truthdiscovery/algorithm/average_log.py:AverageLog._run", "truthdiscovery/algorithm/base.py:BaseIterativeAlgorithm.get_prior_beliefs"]}
{"id": "C96", "title": "Investment and PooledInvestment in double precision", "statement": "With IEEE doubles, an exponent of at most 3/2 and at most 2^20 sources and claims: if all scores are at least 2^-600 after K iterations, then the run with K+1 iterations succeeds, all its scores are finite and in [0, 1] and the largest ones are exactly 1; so NaN or an early stop occurs only after some score has fallen below 2^-600, and one iteration is always safe. Such a fall happens with the default settings: PooledInvestment() gives NaN to one source and to both claims on a variable for four claims of three sources (although two of the three agree), and NaN to every source and every claim if the same four claims are listed in another order.", "quantifier": "every dataset of at most 2^20 sources and claims, exponent in (0, 3/2], prior, iterator and number of iterations, and log, exp and pow with any relative error up to 2^-55 before the final rounding", "why_tests_cant": "A test shows finite scores for its own dataset; whether underflow can produce NaN depends on the sequence of roundings of every dataset and number of iterations.", "anchors": ["truthdiscovery/algorithm/investment.py:Investment._run", "truthdiscovery/algorithm/investment.py:Investment.update_trust", "truthdiscovery/algorithm/pooled_investment.py:PooledInvestment._run"]}
{"id": "C97", "title": "UnboundedSums in double precision may run for ever", "statement": "In exact arithmetic UnboundedSums stops on every dataset (C38); in IEEE doubles it does not. On twelve claims of three sources (sources 0 and 1 with five claims each, source 2 with two; no conflicts) UnboundedSums() with its default settings, or with any larger threshold, is still iterating after every number of iterations, so the call never returns. On the same claims listed in reverse order it returns after 36 iterations. Both hold for every order in which numpy sums.", "quantifier": "every number of iterations (and every threshold of at least 20) of the run on that dataset", "why_tests_cant": "A test can only wait for a finite time; that the run never ends needs an argument about all iterations.", "anchors": ["truthdiscovery/algorithm/unboundedsums.py:UnboundedSums._run", "truthdiscovery/utils/iterator.py:OrdinalConvergenceIterator"]}
{"id": "C98", "title": "Ties in double precision", "statement": "Two sources that make the same claims get the same trust, to the last bit, from every iterative algorithm with every parameter and in every partial result; two claims made by the same sources get the same belief, to the last bit, from Sums, AverageLog, Investment, CRH and UnboundedSums (and TruthFinder without implications) once an iteration has been carried out. Ties for other reasons are not kept: on seven claims in which two sources are mirror images of each other, the two values they disagree about have the same belief in exact arithmetic for every order of the claims, but Sums() in IEEE doubles reports value 1, both values, or value 0 as the most believed for three orders of the same claims.", "quantifier": "every dataset, algorithm, parameter, iterator, and arithmetic (the first two parts), every order of summation of numpy and every order of the claims (the last)", "why_tests_cant": "Equality of floating point scores depends on the order of the operations in every iteration; a test on a few datasets cannot tell exact from approximate equality in general.", "anchors": ["truthdiscovery/algorithm/base.py:BaseIterativeAlgorithm.run", "truthdiscovery/algorithm/sums.py:Sums._run", "truthdiscovery/output/result.py:Result.get_most_believed_values"]}
{"id": "C99", "title": "Accuracy of Sums, AverageLog and voting in double precision", "statement": "In double-precision arithmetic (IEEE binary64, round to nearest), after k iterations Sums (from any prior, with any iterator) returns for every source and claim a finite score whose relative distance from the k-th iterate of the published update, computed exactly, is at most (k (a + b + 1) + 1) / 2^51, where no source makes more than a claims and no claim has more than b sources; the same holds for every partial result, for AverageLog with a + b + 5 in place of a + b + 1 (if some source makes at least two claims), and for majority voting with 1 / 2^52. So rounding neither accumulates faster than linearly in the number of iterations nor is amplified by the normalisation. Consequently a value whose exact belief exceeds that of every rival by more than this is the only most believed value reported, and every reported most believed value has the largest exact belief up to this bound.", "quantifier": "every non-empty dataset with |S|^2 |C| <= 2^53 and |S| |C| <= 2^w, all priors and iterators, every number k of iterations with 53 + (k + 1) w <= 1022 (Sums) or 53 + w + k (2 w + 1) <= 1022 (AverageLog), every order of summation, and log, exp and pow with any relative error up to 2^-55 before the final rounding", "why_tests_cant": "The error of a floating-point computation is a statement about all roundings that occur in a run; tests compare a few results with a fixed tolerance.", "anchors": ["truthdiscovery/algorithm/sums.py:Sums._run", "truthdiscovery/algorithm/average_log.py:AverageLog._run", "truthdiscovery/algorithm/voting.py:MajorityVoting._run", "truthdiscovery/algorithm/base.py:BaseIterativeAlgorithm._run", "truthdiscovery/output/result.py:Result.get_most_believed_values"]}
{"id": "C100", "title": "Convergence in double precision stops where it does in exact arithmetic", "statement": "Let Sums or AverageLog run with a convergence iterator (any of the four measures). Let D_j be the exact distance between the trust scores before and after iteration j of the published update, and let e be n (n + 2 (N q + 1) + 3) / 2^51 (for the cosine measure, (4 n (N q + 3) + 16) / 2^51) for n sources, N iterations and q = a + b + 1 (Sums; no source makes more than a claims, no claim has more than b sources) or a + b + 5 (AverageLog). If the exact computation ends after N iterations and no D_j (j <= N) is within e of the threshold, then the double-precision run ends after exactly N iterations too, without an error, and its scores are those of the exact run up to the relative error of C99. Without that assumption: a double-precision run that ends after N iterations has D_N < threshold + e and D_j >= threshold - e before; and it ends within N iterations if D_N < threshold - e. The assumption cannot be dropped: for a dataset of four claims and a threshold next to 2/3 the exact run needs two iterations and every double-precision run three.", "quantifier": "every non-empty dataset with the size bounds of C99, all priors, thresholds, limits >= N, every order of summation of numpy, and log, exp and pow with any relative error up to 2^-55 before the final rounding", "why_tests_cant": "Whether a comparison of computed numbers has the outcome of the exact comparison depends on all rounding errors of the run; tests see only whether a few runs converge.", "anchors": ["truthdiscovery/utils/iterator.py:ConvergenceIterator.compare", "truthdiscovery/utils/iterator.py:ConvergenceIterator.finished", "truthdiscovery/algorithm/sums.py:Sums._run", "truthdiscovery/algorithm/average_log.py:AverageLog._run"]}
{"id": "C101", "title": "Sums and AverageLog converge within an explicit number of iterations", "statement": "With a convergence iterator (any of the four distance measures, threshold th > 0) Sums ends after at most N iterations, where N is any number with c < th * (N - 1), provided the limit allows N iterations; so it raises no ConvergenceError. Here c = q * 2 n sqrt(a k) with n sources, k claims, at most a claims per source, and q = n, sqrt(n), 1, n for L1, L2, L_INF, cosine. The same holds for AverageLog with c = q * 4 n sqrt(k), if some source makes two claims. The reason is that the trust scores change in iteration i + 1 by at most c / i. With the default threshold 0.0001 and limit 1000000 this covers inputs with 4 n^4 a k <= 9900 (Sums) and 16 n^4 k <= 9900 (AverageLog). In double precision it holds with th reduced by the bound on the rounding error of C100.", "quantifier": "all non-empty inputs, the four priors, the four distance measures, all thresholds, limits at least N, all N; exact arithmetic, and double precision with any summation order, and log, exp and pow with any relative error up to 2^-55 before the final rounding", "why_tests_cant": "a worst-case iteration bound over all inputs needs the spectrum of the claim matrix of every input; tests see a few inputs", "anchors": ["truthdiscovery/utils/iterator.py:ConvergenceIterator.finished", "truthdiscovery/algorithm/sums.py:Sums._run", "truthdiscovery/algorithm/average_log.py:AverageLog._run"]}
{"id": "C102", "title": "JSON text of graphs, animations and data", "statement": "The text that json.dump writes for a value is read back, by JSON.parse in the browser and by json.load in Python, as exactly that value, whatever characters (quotation marks, backslashes, control characters, characters outside the basic plane) its strings and member names contain, if its numbers are written as numeric literals; different values have different texts; the text is one line of printable ASCII. So the text of a graph is read as the graph that was drawn (and the canvas shows it), and the text of an animation, for which each frame is written, read and written again, is read as the frames that were computed. Numbers that are not finite are written as the words NaN, Infinity, -Infinity: Python reads them back, the browser refuses every text that contains one of them (and never reads another value).", "quantifier": "all values (of any depth), all strings, all graphs and lists of frames, all number formats that are numeric literals", "why_tests_cant": "All texts and nesting depths: tests use a few strings without special characters.", "anchors": ["truthdiscovery/graphs/backends/json_backend.py:JsonBackend.draw_entities", "truthdiscovery/graphs/animation.py:JsonAnimator.write", "truthdiscovery/client/web/server.py:WebClient.get_results_object", "truthdiscovery/client/web/static/app/app.js"]}
{"id": "C103", "title": "The home page offers exactly what the server accepts", "statement": "The data the server puts into the home page are read by the application as the object that was put in: escaping for HTML and the restoration of quotation marks by the application cancel, for any data, except that &, <, > and ' in strings stay escaped, and no data can end the script element. So the algorithms offered are exactly those whose label the server accepts, each shown with the name of its class; the distance measures offered are exactly those the server accepts, and each gives iteration settings the server understands; and every algorithm in an answer of the server, to any request, is one for which the page has made a drawing area.", "quantifier": "all data with numbers written as literals, all texts after the element, all requests, environments and arithmetics", "why_tests_cant": "Escaping has to be right for all data; agreement of page and server is about all labels, also those the server might accept and the page not offer.", "anchors": ["truthdiscovery/client/web/server.py:WebClient.home_page", "truthdiscovery/client/web/templates/index.html", "truthdiscovery/client/web/static/app/app.js", "truthdiscovery/client/base.py:BaseClient.algorithm_cls"]}
{"id": "C104", "title": "Accuracy of Investment and PooledInvestment in double precision", "statement": "For Investment with an exponent 0 < g <= 3/2 on at most 2^20 sources and claims, with any prior and any iterator: if no score of the partial results before the n-th is below 2^-160, then every score of the n-th partial result is a finite number that differs from the score that n exact iterations of the published update give by at most the fraction (a + 2b + 10) (2 + g)^n / 2^51 of it, where no source makes more than a claims and no claim has more than b sources (as long as this fraction is at most 1). For PooledInvestment the same holds with 2^-64 and (a + 2b + v + 15) (3 + 2g)^n / 2^51, where no variable has more than v values. It is also enough that the exact scores after the iterations 1, ..., K - 1 are at least 2^-159 (2^-63): then the run with K iterations succeeds and its result has that accuracy, if the fraction is at most 1/2.", "quantifier": "every non-empty dataset of that size, all exponents, priors, iterators and numbers of iterations within the bound, every order of summation of numpy, and log, exp and pow with any relative error up to 2^-55 before the final rounding", "why_tests_cant": "The error bound is about all inputs and all rounding errors of a run; tests compare a few results with numbers rounded to a few places.", "anchors": ["truthdiscovery/algorithm/investment.py:Investment._run", "truthdiscovery/algorithm/investment.py:Investment.update_trust", "truthdiscovery/algorithm/pooled_investment.py:PooledInvestment._run"]}
{"id": "C105", "title": "The text of an answer of the server", "statement": "The body of a successful answer of the server is one JSON value followed by a line feed, written without white space, or indented by two if the application is in debug mode, with the members of every object sorted. In exact arithmetic, if its numbers are written as numeric literals that are read back: the browser reads from it an object for every algorithm requested, and whatever it reads are the outputs that were computed: the trust in every source, the belief in every value, the graph and the animation (texts that are parsed in turn), the differences if there are any, and the messages; keys that were integers or values are texts. The scores in an answer are finite in every arithmetic, since a score that is not has no colour and the request fails; in exact arithmetic all numbers are finite if the times and the differences are. A difference that is not finite (Python reads NaN and Infinity in 'previous_results') makes the whole text unreadable for the browser.", "quantifier": "every request that is answered, both styles, every way to write and to read numbers that reads back the numbers of the answer, every order in which JavaScript enumerates an object", "why_tests_cant": "Round trips are about every answer the server can give and every label, value and message in it; the tests look at a few answers through the test client, which parses them with Python's json.", "anchors": ["truthdiscovery/client/web/server.py:WebClient.run", "truthdiscovery/client/base.py:BaseClient.get_output_obj", "truthdiscovery/client/web/static/app/app.js"]}
{"id": "C106", "title": "UnboundedSums in double precision ranks correctly what is clearly different", "statement": "Let UnboundedSums (with any threshold and prior) return in IEEE doubles after k iterations on a dataset where no source has more than a claims and no claim more than b sources. If the exact unnormalised score of a source (or claim) after k iterations is less than that of another one by more than the fraction (k(a+b+1)+1)/2^52, then its reported rank is smaller. If moreover in every iteration any two sources have scores that differ by more than that fraction or make the same claims, and in the last one any two claims do or have the same sources, then the run in doubles returns (it need not otherwise, C97), after the same number of iterations and with exactly the same ranks as the run in exact arithmetic. (Up to 96 iterations and sizes that exclude overflow.)", "quantifier": "every such dataset, every prior and threshold, every order in which numpy sums", "why_tests_cant": "Rounding errors accumulate over iterations and depend on the order of summation; tests only see some datasets, and C97 shows that ties can go wrong for ever.", "anchors": ["truthdiscovery/algorithm/unboundedsums.py:UnboundedSums._run", "truthdiscovery/utils/iterator.py:OrdinalConvergenceIterator.compare", "truthdiscovery/utils/iterator.py:OrdinalConvergenceIterator.get_ranking_vector"]}
{"id": "C107", "title": "What is entered in the form reaches the server unchanged", "statement": "The request the page sends for the entered data (the labels of the algorithms, the matrix as CSV text, the parameters, the previous results) is answered by WebClient.run for exactly these data: whatever characters they contain, and in this order for the algorithms. The same holds for every other client that writes the parameters in a correct way (any character escaped or not, in upper or lower case, spaces as + or %20); a percent sign not followed by two hexadecimal digits stands for itself); if a parameter is given more than once the first value counts, but for algorithm all values count, in order; other parameters are ignored. The request consists of printable ASCII characters only, whatever was entered, so that nothing entered can end the request line. WebClient.run answers exactly the requests with method GET or HEAD for the path /run/, and home_page exactly those for the path /; nothing else reaches the client.", "quantifier": "all texts, labels, parameters; all ways to escape them; all methods, paths and queries", "why_tests_cant": "tests of the server use the parameters of a test client and a few texts; here the encoder of the page and the decoder of the server are composed, for every sequence of Unicode characters", "anchors": ["truthdiscovery/client/web/server.py:route.add_routes", "truthdiscovery/client/web/server.py:WebClient.run", "truthdiscovery/client/web/static/app/app.js:getResults", "truthdiscovery/client/web/static/js/angular.min.js:ba"]}
{"id": "C108", "title": "The page shows the results for the matrix entered", "statement": "For a matrix with at least two columns and an entry, any selection of algorithms except UnboundedSums (AverageLog: only if some row has two entries; CRH: not with 0 iterations) and valid iteration settings, in exact arithmetic and with numbers that are read back as they were written: the request the page sends is answered with results, or, with iteration until convergence, possibly with status 500. Whatever the browser reads from the text of the answer, the page then shows for each selected algorithm, and for no other, the scores that the algorithm reports for the entries of the matrix: in the table of sources each row with an entry exactly once with its trust, in the table of claims each column with an entry exactly once and there each value exactly once with its belief, the largest in bold, however the user sorts the tables; the graph shows these scores too. Without comparison no differences are shown.", "quantifier": "every matrix, selection of algorithms, settings, previous state of the page, style of the answer, way to write numbers, order in which JavaScript enumerates objects, sorting", "why_tests_cant": "the property spans the form, the encoding of the request, the server, the algorithms, the text of the answer and the page; no test of the project crosses more than one of these borders", "anchors": ["truthdiscovery/client/web/server.py:WebClient.run", "truthdiscovery/client/web/static/app/app.js:getResults", "truthdiscovery/client/web/static/app/templates/results.html"]}
{"id": "C109", "title": "Each iteration of CRH in double precision is accurate", "statement": "With eps a double between 2^-60 and 1 (the default is one) and at most 2^46 for sources times claims squared, every iteration of CRH that run() or run_iter() performs in doubles is computed accurately, whatever the iterator: the first beliefs are the shares of the sources up to one rounding, every new trust score differs from the exact new score for the beliefs before the iteration by at most (4 claims + sources + 144) / 2^52, and every new belief from the exact share of the new trust by at most the fraction (2 sources + 1) / 2^52 of it. The result of run() and all results of run_iter() are the scores of such a chain of iterations.", "quantifier": "all datasets of the given size, all such eps, all iterators, all orders in which the platform adds numbers, all C libraries with the stated accuracy of log", "why_tests_cant": "tests compare a few scores with a tolerance; whether rounding errors can be blown up inside an iteration (squares of small differences, logarithms near 1, quotients) for some dataset cannot be tested", "anchors": ["truthdiscovery/algorithm/crh.py:CRH._run"]}
{"id": "C110", "title": "The reader of JSON texts accepts exactly the JSON texts", "statement": "JSON.parse in the browser and json.loads in Python return a value for a text exactly if the text stands for this value according to the grammar of JSON (RFC 8259): white space of four kinds around every token; literal words; arrays and objects with commas between their parts and none at the end; strings with every character but quotation marks, backslashes and control characters as itself, the eight short escapes, and escapes with four hexadecimal digits in upper or lower case, where two of them may make up one character. json.loads accepts moreover the three words NaN, Infinity and -Infinity. No text stands for two values, and every other text is refused. (Which literals are numbers, and which numbers they are, is a parameter; strings with unpaired surrogates are not modelled.)", "quantifier": "all texts and all values, every reading of the literals of numbers that refuses the empty text and a bare minus sign", "why_tests_cant": "The set of texts is infinite and nested without bound; round trips (C102) only say something about texts the program itself has written, while 'previous_results' and the answers may come from anywhere.", "anchors": ["truthdiscovery/client/web/server.py:WebClient.get_results_object", "truthdiscovery/graphs/animation.py:JsonAnimator.write", "truthdiscovery/client/web/server.py:WebClient.run", "truthdiscovery/client/web/static/app/app.js"]}
{"id": "C111", "title": "Each iteration of TruthFinder in double precision is accurate", "statement": "TruthFinder in doubles, without implications, with a dampening factor between 0 and 1, initial trust at least 1/4 and at most 2^46 sources and claims: between consecutive results of run_iter() (the last has the scores run() returns), if all n sources of a claim have trust below 1, the new belief in the claim differs from the exact belief for these trust scores by at most (n + 21) / 2^52; if one of them has trust above 1 or NaN the new belief is NaN. If the beliefs in the n claims of a source are numbers its new trust differs from their mean by at most (n + 2) / 2^52; if one of them is NaN so is the trust. The first result of run_iter() has the initial trust and beliefs 0. Every trust score is NaN or at least 1/4, and an iteration only takes place if no trust score is exactly 1.", "quantifier": "every dataset of the given size without implications, all such parameters, all iterators and numbers of iterations, all C libraries with the stated accuracy of log and exp", "why_tests_cant": "The bound is about all inputs and all rounding errors; tests compare a few results with numbers rounded to a few places, and saturation (C79) occurs only in larger datasets.", "anchors": ["truthdiscovery/algorithm/truth_finder.py:TruthFinder._run", "truthdiscovery/algorithm/truth_finder.py:TruthFinder.get_log_trust"]}
{"id": "C112", "title": "TruthFinder in double precision stays close to the exact scores", "statement": "TruthFinder in doubles without implications, with dampening factor g between 0 and 1, initial trust t0 of at least 1/4, at most 2^46 sources and claims, at most a claims per source and b sources per claim.  Let d > 0 with t0 <= 1 - d.  If the exact trust scores (computed without rounding) before iteration n are at most 1 - d, then after n iterations every score is a number that differs from the exact one by at most (a + b + 23) / (2^50 d) * (1 + gb + ... + (gb)^(n-1)), provided that this is at most 1/2; this holds for every partial result of run_iter() and for the result of run().  If gb < 1, d^(1 - gb) <= 1/2 and (a + b + 23) / (2^50 d (1 - gb)) <= 1/2, the exact trust scores do stay below 1 - d, this last number bounds the errors after any number of iterations, and a run with a FixedIterator performs all of its iterations.  Where the exact belief in a value exceeds that in every other value of the variable by more than twice the bound, it is the only most believed value reported.", "quantifier": "every dataset of the given size without implications, all such parameters, all iterators and numbers of iterations, all C libraries with the stated accuracy of log and exp", "why_tests_cant": "Rounding errors are amplified by every iteration, and the logarithm amplifies them without bound near trust 1; a test compares one run with one reference.", "anchors": ["truthdiscovery/algorithm/truth_finder.py:TruthFinder._run", "truthdiscovery/utils/iterator.py:FixedIterator.finished"]}
{"id": "C113", "title": "TruthFinder forgets its initial trust when little is amplified", "statement": "In exact arithmetic, with any implications, initial trust in [0, 1) and a dampening factor g >= 0: call g (n + rho Sum |i| m) the amplification of a claim, where n is its number of sources, rho the influence parameter, and the sum runs over the other values of the variable, with m sources each and the implication value i from them to the claim.  If no claim has an amplification above k < 1, then the scores after N iterations differ from those after N or more iterations, from whatever other initial trust, by at most k^N M, M = max(-log(1-t), -log(1-t'), log 2/(1-k)) for initial trusts t and t' (beliefs: N >= 1); so there is one set of scores to which TruthFinder converges at this rate from every initial trust, and these are the only scores with trust in [0, 1) that the update leaves as they are; and a run with a ConvergenceIterator (L1, L2 or L_INF; any measure if also N >= 1 and k^N M <= 2 / (1 + exp(k M))^2) succeeds within N + 1 iterations if |S| k^N M is below the threshold and the limit allows N + 1.", "quantifier": "every non-empty dataset and implication function of small amplification, all initial trusts in [0, 1), all iterators and numbers of iterations", "why_tests_cant": "Limits and rates quantify over all numbers of iterations and all initial trusts; tests run a few and cannot tell slow convergence from none.", "anchors": ["truthdiscovery/algorithm/truth_finder.py:TruthFinder._run", "truthdiscovery/algorithm/truth_finder.py:TruthFinder.get_log_trust", "truthdiscovery/utils/iterator.py:ConvergenceIterator.compare"]}
{"id": "C114", "title": "TruthFinder in double precision stops where it does in exact arithmetic", "statement": "Without implications, with at most 2^46 sources and 2^46 claims, at most a claims per source and b sources per claim, dampening factor g in [0, 1], initial trust t0 in [1/4, 1 - d] (a double), the exact trust scores staying below 1 - d and E = (a+b+23)/(2^50 d) Sum_{i<N} (g b)^i at most 1/2: a ConvergenceIterator (any measure; cosine for at most 2^40 sources) whose run ends in exact arithmetic after N iterations ends in doubles after the same N iterations, with scores within E of the exact ones, if no exact distance of iterations 1..N is within |S|((|S|+3)/2^51 + 2E) of the threshold (for cosine, within (|S|+2)/2^48 + 16E).  Without this condition: a run in doubles that ends after N iterations has a last exact distance below the threshold and no earlier one below it, up to that error; and it ends, at the latest after the first iteration whose exact distance is below the threshold by more than the error.  If g b < 1 and d^(1-gb) <= 1/2, it always ends, within N + 1 iterations for every N with |S| (gb)^N max(-log(1-t0), log 2/(1-gb)) below the threshold less that error (for cosine, with (gb)^N max(..) at most 1/8 as well).", "quantifier": "every non-empty dataset within the stated sizes, all parameters within the stated ranges, every threshold and iteration limit, all four measures", "why_tests_cant": "Whether rounding changes the number of iterations depends on every score of every iteration; tests compare one run with recorded numbers and have no exact arithmetic to compare with.", "anchors": ["truthdiscovery/algorithm/truth_finder.py:TruthFinder._run", "truthdiscovery/utils/iterator.py:ConvergenceIterator.compare", "truthdiscovery/utils/iterator.py:ConvergenceIterator.finished"]}
{"id": "C115", "title": "CRH settles in double precision", "statement": "On a complete dataset (every source makes a claim about every variable) with n sources and m claims, n m^2 <= 2^46, eps a double between 2^-60 and 1: a run of CRH in doubles with a ConvergenceIterator (any measure) succeeds if its threshold T is at least 64 n m^2 (32 m + 10 n + 1153) / (2^52 eps) and, for the cosine measure, whose distances never exceed 1, at most 1/4, and its limit at least B = 2048 n^3 m^2 (eps + 4 m) (eps + log n) / (eps^3 T^2) + 2, and it needs no more than B iterations, whatever the order in which numpy adds.", "quantifier": "every complete dataset within the size, all such eps, thresholds, limits, priors, the four measures, all orders of addition and all C libraries with the stated accuracy of log", "why_tests_cant": "That rounding errors do not keep the scores moving for ever concerns all numbers of iterations and all datasets; a test sees that some runs end.", "anchors": ["truthdiscovery/algorithm/crh.py:CRH._run", "truthdiscovery/utils/iterator.py:ConvergenceIterator.compare", "truthdiscovery/utils/iterator.py:ConvergenceIterator.finished"]}
{"id": "C116", "title": "What TruthFinder returns is close to its equilibrium", "statement": "If no claim has an amplification above k < 1 (see C113), TruthFinder has one equilibrium: the only scores with trust in [0, 1) that its update leaves as they are. A run in exact arithmetic (any implications, initial trust t in [0, 1)) that a ConvergenceIterator (L1, L2 or L_INF) of threshold th ends returns scores within k/(1-k) exp(M) th of the equilibrium, M = max(-log(1-t), log 2/(1-k)). In double precision, without implications and with a, b, g, d and E as in C112 (k = g b < 1, d <= 1 - t0, d^(1-gb) <= 1/2), the bound is k/(1-k) (th + h)/d + E, where h = |S|((|S|+3)/2^51 + 2E); and after n >= 1 iterations, with any iterator, the scores are within k^n max(-log(1-t0), log 2/(1-k)) + E of the equilibrium.", "quantifier": "every dataset of small amplification, all thresholds, limits, initial trusts, iterators and numbers of iterations, every platform logarithm and exponential accurate to 2^-55", "why_tests_cant": "The equilibrium cannot be computed by a test, and that a small change in the last iteration means a small distance from the equilibrium is a statement about all later iterations.", "anchors": ["truthdiscovery/algorithm/truth_finder.py:TruthFinder._run", "truthdiscovery/algorithm/truth_finder.py:TruthFinder.get_log_trust", "truthdiscovery/utils/iterator.py:ConvergenceIterator.finished"]}
{"id": "C117", "title": "Small changes of the settings of TruthFinder change its scores little", "statement": "In exact arithmetic, for two settings of TruthFinder (implications, influence parameter rho, dampening factor g >= 0, initial trust in [0, 1)) on the same claims, with no amplification (see C113) above k < 1 and k' < 1: for a claim with n sources let its change be |g - g'| n + Sum |g rho i - g' rho' i'| m, over the other values of the variable with m sources each and the implication values i and i' from them to the claim. If no claim has a change above D, then after the same number n of iterations every trust score differs between the settings by at most k^n |log(1-t) - log(1-t')| + D max(-log(1-t'), log 2/(1-k'))/(1-k), and so does every belief if n >= 1; and the scores of the two equilibria (see C116) differ by at most D log 2/((1-k)(1-k')).", "quantifier": "every non-empty dataset, all pairs of settings of small amplification, all iterators and numbers of iterations", "why_tests_cant": "A statement about all pairs of real parameters and implication functions and all numbers of iterations; tests compare a few runs.", "anchors": ["truthdiscovery/algorithm/truth_finder.py:TruthFinder._run", "truthdiscovery/algorithm/truth_finder.py:TruthFinder.__init__"]}
{"id": "C118", "title": "In TruthFinder the influence of data decays with their distance", "statement": "In exact arithmetic, with the same settings (any implications, initial trust t in [0, 1), dampening factor >= 0), on two datasets in which no amplification (see C113) is above k < 1: say that the datasets agree around a source up to distance 0 always, and up to distance i + 1 if the source makes the same claims in both, these compete with the same other values in both, all of them claimed by the same sources in both, and the datasets agree around these up to distance i. If they agree around a source up to distance i, its trust after any number of iterations (the same in both) differs by at most k^i max(-log(1-t), log 2/(1-k)) between the two datasets, and so do the beliefs in its claims if i >= 1, after at least one iteration.", "quantifier": "every pair of datasets of small amplification, every source of both, every distance, all iterators and numbers of iterations", "why_tests_cant": "A statement about all pairs of datasets, however large the parts are in which they differ; tests can compare a few.", "anchors": ["truthdiscovery/algorithm/truth_finder.py:TruthFinder._run", "truthdiscovery/algorithm/truth_finder.py:TruthFinder.get_log_trust"]}
