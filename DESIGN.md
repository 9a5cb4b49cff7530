# A Lean 4 model of joesingo/truthdiscovery

`lean/Verif/Model/*` is the model (one file per group of source files, every
definition cites the lines it models), `lean/Verif/Spec/*` holds the small
independent specifications, `lean/Verif/Lemmas/*` helper lemmas and
`lean/Verif/Props/*` the property theorems (`C01_…`, `C02_…`), each followed by
`example`s showing that concrete non-trivial cases meet the hypotheses.

## Trusted base

* Lean 4.33's kernel. No axioms of our own; the property theorems depend on at
  most `propext`, `Classical.choice`, `Quot.sound` (printed by
  `#print axioms`, see `tools/axioms.sh`).
* The reading of the Python source that is written down in `Verif/Model`. The
  code itself was not run; the tie to it is the citation of every definition.
* The reading of library behaviour listed below (numpy, scipy, bidict,
  Python dict/str/float, re, flask).

### Numbers

The code computes with IEEE doubles. The model is parametrised by a type of
numbers `α` with operations but **no laws** (`class Arith`,
`Model/Arith.lean`). Three levels of theorems result:

1. *Structural* theorems, for every `Arith α`: they hold verbatim for doubles,
   whatever numpy's summation order or BLAS do. (Some need one law, e.g.
   `1 == 0` is false, and say so.)
2. *Rounded arithmetic*: the type `FP R` (`Model/Float.lean`): NaN, +inf, -inf
   and the reals representable under a monotone, idempotent rounding `R` (with
   `log`, `exp`, `pow` faithful), with IEEE rules for special values. IEEE double with round-to-nearest is an
   instance up to the sign of zero (no operation of the library can observe
   it). Theorems for every `R` are about actual floating point behaviour.
   `Lemmas/Ieee.lean` checks the tables of special cases against the extended
   reals of Mathlib.
3. *Exact arithmetic* (`ℝ`): what the formulas compute without
   rounding error. These theorems are about the algorithm, not about the
   last bits of the float output. C99, C100, C101 and C104 bound the rounding error of
   voting, Sums, AverageLog and (while no score is tiny) Investment and
   PooledInvestment, and so connect levels 2 and 3 for them.

### Library behaviour assumed

* `dict` keeps insertion order, keys compare with a lawful equality (so no NaN
  labels or mixed `1`/`1.0`/`True` aliases: these are *equal* labels in Python
  and one label in the model).
* `bidict` raises on a duplicate value (modelled; proved not to happen).
* scipy `csr_matrix((data, (row, col)))` sums duplicates; `M @ x` adds the stored
  products of a row in storage order.
* `np.sum`, `np.dot`, `np.linalg.norm`: unspecified at level 1. At level 2 the
  numbers of an array are added in any order (a tree of additions that uses every
  position once and depends only on the length of the array, `Platform`), and
  `np.dot` may fuse any multiplication with an addition: theorems hold for every
  such order. Exact at level 3. scipy's sparse products add from left to right
  (they are compiled without fused multiply-add). `np.random.choice` is
  modelled after numpy 1.24: compensated sum of the weights for the check, plain
  cumulative sums for the draw.
* `np.log`, `np.exp` and `**`: IEEE 754 does not fix their last bit. At level 2
  they return the exact value with some relative error of at most `2^-55`,
  rounded (`Platform.logErr` etc.): an error of up to 5/8 of a unit in the last
  place, more than glibc documents. The errors may be different for every
  argument, the functions need not be monotone; theorems hold for all of them
  (proved from it: results are faithful, and exact if the value is a double,
  `Double.faithful`). For an abstract `R` only faithfulness is assumed. Assumed:
  the same argument gives the same result each time (numpy uses one kernel).
  `+ - * /` and `sqrt` are correctly rounded, as IEEE 754 demands.
* Random generators, clock, number parser/printer, JSON parser and the
  implication function are parameters (oracles): theorems hold for every
  behaviour of theirs, or under the hypotheses stated in the theorem.

* Rounded arithmetic has one unsigned zero; `-0.0` and `0.0` are the same
  number in the model. Nothing the library reports distinguishes them except
  the printed sign.
* `argparse` is modelled after its source in Python 3.11.10 (`Model/Argparse`):
  abbreviations, `--x=y`, `-xy`, clusters of flags, negative numbers, `--`,
  unknown options. Later versions read negative numbers such as `-1e5` as values
  and report some errors differently. Files: different names are different files
  and all contain text.
* flask: `request.args`/`form` are a lookup from names to texts; the response
  is the value the view returns, or an exception escaping the view. `jsonify` is
  modelled after Flask 2.2.3 (`json.dumps` with `sort_keys`, compact or indented,
  and a line feed); what it gets in debug mode and otherwise is covered by C105.
  `request.args` is `url_decode` of Werkzeug 2.2.3 (`Model/Http`, C107): split at
  `&` and the first `=`, `+` is a space, escapes are bytes of UTF-8. A route is
  matched by equality of the path; everything else is left to Flask.
* The browser: `encodeURIComponent` as in ECMAScript; `$http` as in the copy of
  AngularJS 1.7.7 in the repository; an address is sent without its part from
  `#` on, apostrophes of the query escaped. No limit on the length of addresses
  (the development server answers 414 beyond 65536 bytes).

### What is modelled, by file of /repo/truthdiscovery

| source | model | remarks |
|--------|-------|---------|
| `input/dataset.py` | `Model/Dataset` | all of it; sparse matrices as entry lists |
| `input/matrix_dataset.py` | `Model/Matrix`, `Model/Text` | CSV text as list of characters |
| `input/supervised_data.py`, `input/synthetic_data.py` | `Model/Supervised`, `Model/Synthetic` | random draws are oracles |
| `input/file_helpers.py` | `Model/Files` | the file is the list of its lines |
| `utils/iterator.py` | `Model/Iterator`, `Model/Experiment` (debug output) | all |
| `examples/convergence_test.py` | `Model/Experiment` | what is drawn (not matplotlib) |
| `examples/synthetic_experiment.py`, `examples/timing_test.py` | `Model/Trials` | the numbers computed (not the plots); random numbers, choices and clock are oracles |
| `algorithm/*.py` | `Model/Algorithm` | all seven algorithms and the base class |
| objects, generators, aliasing | `Model/History`, `Model/Heap` | iterators and algorithms as mutable objects, several generators interleaved |
| `output/*.py` | `Model/Result` | all |
| `client/base.py` | `Model/Client` | the regular expressions as matchers |
| `client/web/server.py` | `Model/Web`, `Model/AnswerText`, `Model/Home`, `Model/Http` | the routes, the query of a request, the `run/` route and the text of its answers; the data in the home page |
| `client/cli.py` | `Model/Cli`, `Model/Argparse`, `Model/Main` | from the words of the command line to output, errors and files (not the texts of help and error messages; YAML is trusted) |
| `client/web/static/app/*.js`, `results.html` | `Model/Frontend`, `Model/Canvas`, `Model/Page` | matrix editing, CSV, animator, request building, the state of the page and its tables (what AngularJS' `ng-repeat`, `orderBy`, `number`, `ng-class` and disabled fieldsets do is trusted), drawing (canvas calls as a trace; their effect is `Spec/Canvas`, after the HTML standard, and trusted) |
| `graphs/*.py`, `graphs/backends/*.py` | `Model/Graph`, `Model/Backends` | entities, colours, animation, both backends (Cairo calls as a trace) |
| Python's `json` module, `JSON.parse` | `Model/JsonText`, `Model/JsonFiles` | texts written and read; `float.__repr__` and the reading of numerals are parameters |

### Not modelled

The pixels Cairo paints and `imageio`'s encoders, argparse's messages,
HTTP (except method, path and query), Jinja (except autoescaping) and Angular (except how it writes
parameters), of the stand-alone scripts of `examples/` the plots
and what they print, `doc/`, threads (the library starts none), memory
limits and running time.

## Places where the code does not do what one would expect

Found while stating the properties; each is a theorem or an `example` of the
module named.

* An experiment of `examples/synthetic_experiment.py` can be run only once per process: its
  parameters are iterators in a class attribute, so a second run raises `RuntimeError`
  (`C92_second_run`, `C92_single_use`).  It fails with `ValueError` if in one of the datasets no
  two sources disagree (`C92_script`, `Toy.script_fails`).
* PooledInvestment: a claim can lose belief, and its first place, because one more
  source supports it (`C87_pooled`).  With Investment one of two tied claims can fall
  behind the other by gaining a supporter (`C87_investment`).  AverageLog ignores sources with a single claim
  altogether (`C87_avlog`).
* CRH divides by the trust of all sources, not of those that make a claim about the variable; on
  incomplete data it therefore does not minimise the objective of its paper, and an undisputed
  claim gets belief below 1 (`C89_incomplete`).
* `graph` empties its output file while it reads the command line, so a command that
  fails afterwards (a wrong option, an invalid CSV file) has destroyed it; with the
  same name for dataset and output the data are lost and an empty picture is drawn
  (C86_data_loss; `Props/Main`).
* `num_connected_components` over-counts (C08; `Props/Components`).
* AverageLog with only one-claim sources gives NaN everywhere, so it never
  converges and the web client fails when colouring (C32, C52).
* UnboundedSums with a Fixed or Convergence iterator raises `AttributeError`;
  the web client does not catch it (C52; `Props/Web`), and the front end always
  sends such an iterator (C74).
* A `NaN` or `Infinity` in `previous_results` (Python accepts them) makes the answer of the
  web server unreadable for the browser, because the differences are then written as words
  that are no JSON (`C105_refused`, `C105_nan`). A score that is not finite ends in an
  exception instead (`C105_scores`, C77).
* `previous_results` that is JSON but no object escapes as `TypeError` (C52).
* A one-column matrix loses leading and trailing empty rows in a CSV round
  trip (C11 has the exact condition).
* Animations: zero iterations divide by zero, CRH with a fixed limit of 0
  yields no frame (C57).
* CRH with 0 iterations (which the form offers) breaks the web page: the animation
  has no frame, and no table is shown (C82; `C82_crh`).
* The tables of the web page sort sources and values as texts, and differences of
  at least 1000 are shown as `(-NaN)` (C82).
* `GraphRenderer.compile` keeps the height of an earlier call and interleaved
  `compile` generators share `self.dataset` (C55).
* Empty datasets are drawn with height `-spacing` (C53).
* Labels that are tuples are taken for claims by the gradient scheme (C56);
  levels below zero wrap around.
* `Result.filter` copies the outer, not the inner dictionaries when
  `variables` is given (C45).
* `SyntheticData` accepts a NaN claim probability (C16).
* Iterator thresholds written with an exponent (`1e-5`) are rejected, and `$`
  accepts a trailing newline (C48).
* `pyMax` with NaN depends on the order of the claims (C40 needs finite `g`).
* Beliefs of CRH can exceed 1 by rounding, since numpy adds the denominator in another
  order than scipy the numerator (C76; `Props/CrhDouble`, `C76_crh_above`).
* TruthFinder with contradicting values can swing for ever between two phases, so that
  no limit is large enough; the default (cosine) iterator takes that for convergence
  after one iteration, all trust vectors being parallel (C91).
* PooledInvestment violates dominance across variables (C42).
* `truthdiscovery run` lets CSV, empty dataset and convergence errors escape,
  the other two commands report them (C65-C67); accuracy is computed on the
  filtered result (C65).
* The front end drops zeros when loading CSV text (C73).
* PooledInvestment with its default settings returns NaN for a dataset of four claims, and NaN for everything if the
  same claims are listed in another order (C96).
* Sums forgets small groups: sources that share no claim with the main body of a dataset end with trust 0 (and their claims
  with belief 0), even if nobody contradicts them (`C95_fades`); how fast depends only on the numbers of claims and sources.
* `UnboundedSums()` never returns on a dataset of twelve claims without conflicts: two sources that tie in exact arithmetic
  change places for ever by rounding. With the claims in reverse order it returns after 36 iterations (C97).
* Ties that hold in exact arithmetic are broken by rounding, so the most believed value may depend on the order of the rows
  of the input: with seven claims `Sums()` reports value 1, both values or value 0 for three orders (C98).
* A function for the trust values of an experiment that raises `TypeError` is mistaken for a constant; the user sees an
  `AttributeError` (`C92_type_error`).


## Plan per property

Level is 1, 2 or 3 as above; "-" where no numbers are involved.

| id | level | modelled | proof |
|----|-------|----------|-------|
| C01 | - | `IDMapping`, triple loop | loop invariant: mapping = first occurrences of labels numbered 0.. |
| C02 | 1 | `sc` construction | invariant on recorded pairs; `csr` entry lemma |
| C03 | 1 | `mut_ex` | invariant on `mut_ex_claims`; entry lemma |
| C04 | 1 | `imp` | fold over `nonzero`; error iff |
| C05 | - | duplicate branch | error iff, first offending pair; recorded = first per pair |
| C06 | - | as C01/C02 | invariant |
| C07 | 1 | `get_belief_dict`, `get_source_trust_dict` | fold lemma |
| C08 | - | `num_connected_components` | lower bound, exact condition, witness |
| C09 | 1 | `run`, `run_iter` | case split |
| C10 | - | `MatrixDataset` | via C01..C05 |
| C11 | - | `to_csv`/`from_csv` on character lists | parser/printer round trip |
| C12 | - | `csv_to_masked_array` | error iff, shape |
| C13 | - | `SupervisedData.from_csv` | via C12/C10 |
| C14 | 2 | `get_accuracy` | for all choice oracles |
| C15 | - | `SyntheticData` with random oracle | for all oracles |
| C16 | 2 | validation | iff |
| C17 | 3 | `generate_claim` weights and draw | algebra; the numbers leading to a value form an interval; Lebesgue measure |
| C18 | - | `to_csv` | via C11/C13 |
| C19 | 1 | `FixedIterator`, loops | induction on remaining iterations |
| C20 | 1 | `ConvergenceIterator`, loops | induction |
| C21 | 3 | `get_distance` | norms in Mathlib |
| C22 | 2 | `get_ranking_vector` | sorted-list invariant |
| C23 | 1 | `OrdinalConvergenceIterator` | induction over comparisons |
| C24 | 1 | objects + iterators + generators as a state machine | simulation |
| C25 | 1 | same | simulation |
| C26 | 1 | `run`, `run_iter` | loop invariant |
| C27 | 1 | loops | loop lemma |
| C28 | 3 | `get_prior_beliefs` | refinement to label level |
| C29 | 2, 3 | `MajorityVoting` | refinement |
| C30 | 3 | `Sums` | refinement to label-level recursion |
| C31 | 2 | `Sums` | invariant for every rounding |
| C32-C36 | 3 | the other algorithms | refinement, invariants |
| C37 | 3 | `UnboundedSums` | scaling invariance + C22 |
| C38 | 3 | `UnboundedSums` | spectral theorem: differences are finite sums of a·λ^t |
| C39 | 3 | `Sums` | spectral theorem |
| C40 | 3 | all | label-level recursion is order free |
| C41 | 1 | all | matrices equal under renaming |
| C42 | 3 | all | from the refinement |
| C43-C47 | 1, 3 | `output/result.py` | list lemmas |
| C48-C51 | - | `client/base.py`, `output` | regex matcher vs. split spec |
| C52 | 1 | `client/web.py` run route | case analysis |
| C53-C59 | 3 / - | `graphs/*.py` | algebra, list lemmas |
| C60 | 1 | clock oracle in `run` | any clock |
| C61 | 3 | arrow heads in `draw.py` | vector geometry in ℝ² |
| C62 | - | PNG backend as a trace of calls | trace = entities, in order |
| C63 | 2 | all algorithms | case analysis; only `ConvergenceError` remains |
| C64 | - | labels of matrix datasets | printer injectivity |
| C65-C67 | - | `client/cli.py` | exact output for every namespace |
| C68 | 1, 3 | all algorithms | C41 with an automorphism of the dataset + C40 |
| C69 | 1 | iterators × algorithms | trajectories do not mention the iterator |
| C70 | 3 | voting, TruthFinder, Sums family | restriction of the label-level recursion |
| C71 | 3 | AverageLog | spectral theorem with a diagonal weight |
| C72 | - | `file_helpers.py` and its two example subclasses | fold over lines |
| C73 | - | `matrix.js` | rectangularity invariant; CSV text read by the server |
| C74 | - | `app.js` request building × server | composition with C48-C52 |
| C75 | - | `animator.js` | index stays in range |
| C76 | Scores under any rounding | all loop bodies over `FP R`, any `R` | closure of `NaN or >= 0` under the operations; a part of a rounded sum is at most the sum (CRH); `C76_nan`: a run of Investment in binary64 computed exactly (powers of two, underflow, `inf * 0`) |
| C77 | Which requests escape | `webRun`, `oneAlgorithm`, `rawDiff`, renderer, any `R` | case analysis of each stage of a request into success/error with the exact condition (`Spec/Escape`: `Undrawable`, `Usable`, `Escapes`, `Unanswered`), induction over the algorithms; UnboundedSums: all scores stay `inf` or `>= 0` (no NaN), so ranks always exist |
| C78 | Synthetic data in double precision | `Rng.choice`, `synthNew`, `cliSynth` over `FP .binary64` | generic proof of C15-C18, C66 for any sampler that works; relative error of each operation, so the weights add up to 1 within `3 * 2^-53` and numpy's compensated (Kahan) sum of them is within `25 * 2^-53` of 1 (`Lemmas/Kahan`); cumulative sums are monotone and the last quotient is exactly 1; boundaries of the intervals within `(4 d + 14) * 2^-53` of the exact ones |
| C79 | TruthFinder in double precision | `tfBody` over `FP .binary64` | error bound of sums of `n` rounded terms; the refutation: `rnd` evaluated exactly on the nine partial sums of `rnd(1/9)`, bounds for `log` and `exp` from faithful rounding, then NaN is absorbing |
| C80 | coherence of trust and belief | the exact steps | beliefs are a positive multiple of the sums of the trusts of the same iteration (for UnboundedSums in the order of the ranks); for TruthFinder trust is the mean belief; UnboundedSums: the ranking settles (C38); limits: pass to the limit in the recursion, the limit of the normalising factors is positive; a three-source counterexample for one iteration of Sums |
| C81 | what the browser draws | `graph_drawer.js`, drawing of `animator.js`; calls of the canvas | `Spec/Canvas.lean` gives the effect of canvas calls (state machine after the HTML standard); every entity starts from an arbitrary state and adds exactly its paint; animator: invariant over the history |
| C82 | the page with the results | service and results component of `app.js`, `results.html` | invariant over all histories of events (`Visit`): submit, answers and failures in any order, tabs, animations; sorting by induction over clicks; tables from the stable sort; end to end with `C74_answered` |
| C83 | AverageLog and CRH in double precision | `avlogBody`, `crhBody` over `FP .binary64` | interval bounds with representable ends for every intermediate result; AverageLog: the claims of the most trusted source keep a belief of at least `2^-54` (ratio to the largest belief, comparison with a power of two), so the next maximum is positive; CRH beliefs: relative error of a sum from left to right against one in any order (`ratio_err`); `C83_average_log_nan` for the remaining datasets, any rounding |
| C84 | Debug output, convergence experiment | `Model/Experiment`: `compareDebug`, `loopDebug`, `runDebug` (printed text kept on exceptions), `convergenceMain`; `str`/`format`/`float` are parameters that read floats back (`exists_printer`: possible for doubles) | induction over the loop: the text is `numberedLines` of the distances of the passes; the passes agree with those of any other iterator; a Euclidean distance is never below 0, so the run equals the one with FixedIterator(100) |
| C85 | Distance measures in double precision | `getDistance` over `FP R` and `FP .binary64` against `Spec.distance` over the reals; runs with `ConvergenceIterator` | forward error analysis: `(1 + u)^n` bound for sums in any order (induction over the tree of additions), gradual underflow (sums of doubles are never rounded below the normal range), square root and quotient perturbation bounds; induction over passes for non-positive thresholds |
| C86 | From the words of the command line to the command | argparse's algorithm, option tables of the commands, files | grammar of command lines as an inductive relation; the parser accepts exactly it (`parseLine_iff`), then the actions as a fold; how the program ends by cases (Props/MainEnds) |
| C87 | One more supporter of a claim | two datasets related by `Backed`; the label-level steps of the algorithms, and for Sums the limits of the unnormalised iterates | Voting: counts; Sums: pairing of the two dominant eigenvectors (the matrix of the second dataset is that of the first plus a rank-one term), then a maximum argument on the ratios; TruthFinder: every step is monotone; AverageLog: log 1 = 0; PooledInvestment and Investment: three explicit iterations |
| C88 | TruthFinder settles | label-level steps of TruthFinder; `energy` (of trust and beliefs), minimised alternately | an iteration lowers the energy by at least the squared change of the beliefs (Pinsker-type inequality), and the energy is bounded below; trust is at least 1/2, so all four distances are bounded by the change; with small initial trust: monotone bounded sequences |
| C89 | CRH lowers its objective | label-level steps of CRH; `objective`, `Admissible`, `EveryoneClaims`, `crhBound` (Spec/Objective) | alternating minimisation: the weighted mean is the minimiser for given trust (completing the square, the gain is a multiple of the squared change), the logarithmic weights are the minimiser for given beliefs (Gibbs' inequality); Lipschitz bounds turn small changes of beliefs into small distances |
| C90 | Investment concentrates, and settles | label-level steps of Investment; `concentration` (Spec/Objective) | an iteration is, up to scaling, a growth transform (Baum–Eagon): two applications of Jensen's inequality bound the increase of the logarithm of the concentration below by `g` times the relative entropy of the trust, which bounds the change (Pinsker-type inequality); the concentration is bounded |
| C91 | TruthFinder may never settle | label-level steps of TruthFinder; `EvenlySplit`, `Contradicting` (Spec/Objective) | by symmetry all trust is equal, so the iteration is one map of the unit interval; it maps [0.4, 1) to values small compared with `1/κ` and those back to [0.4, 1/2]: two phases alternate; all distances are then at least 0.38 (C20's exact condition for `ConvergenceError`), while constant vectors have cosine distance 0 |
| C92 | Experiments with synthetic data | Model/Trials: the loops of `Experiment.run`, the iterators of the parameters, numpy's generator and `random.choice` as oracles; `Spec/Trials`: `LabelTable`, `MadeWith`, `Contested` | induction over labels, repetitions and algorithms; shapes from C15, accuracies from C14 (`C14_runs`: which variables count does not depend on the algorithm), exceptions from C76 |
| C93 | The timing test | Model/Trials: `perform_test` with the clock as oracle | induction over shapes and algorithms; the datasets from C10, the times from C60 |
| C94 | Replicated evidence | `Spec.Replicated`, `Copies` (labels paired with a copy number) over the published updates of C29–C37 | sums over the copies are multiples of the sums over the originals; each step maps "equal up to factors" to "equal", as it normalises; refutations on datasets with one to three triples |
| C95 | The limits of Sums and AverageLog | `Spec.Linked`, `AllLinked`, `RunsTendTo` over the published updates | Perron–Frobenius for the (weighted) source–source matrix: non-negative eigenvectors vanish on a linked group or nowhere in it, and are unique up to a factor if all are linked; growth rate at least the largest number of claims of a source / sources of a claim |
| C96 | Investment and PooledInvestment in double precision | `investBody`, `pooledBody` over binary64 | The largest amount invested in a claim is bracketed by powers of two, so that every product and quotient of an iteration is bracketed too, by monotone rounding (`Lemmas/InvestDouble`). The NaN is derived from interval bounds for the nine iterations before it (`Lemmas/PooledBounds`, generated, checked by the kernel). |
| C97 | UnboundedSums in double precision may run for ever | `usumsBody`, `rescale`, `rankingVector`, `loop` over binary64 | Rounding to 53 digits of fixed-point numbers is computed on natural numbers and proved equal to the rounding of the model (`Lemmas/Fixed`); the kernel computes 22 iterations and finds the state of iteration 19 again, so by induction no iteration is the last one. |
| C98 | Ties in double precision | all `…Body`, `AlgCfg.run/runIter` over any `Arith`; Sums over binary64 | Equal rows of the source–claim matrix give equal entries in every vector the bodies compute, by congruence only (`Lemmas/Twins`), for any arithmetic; the refutation computes 20 rounded iterations on natural numbers in the kernel (`Lemmas/Fixed`), the exact tie is C68 applied to the mirror symmetry. |
| C99 | Accuracy of Sums, AverageLog and voting in double precision | Rounding.binary64 with the matrix products of the code; `CloseTo`, `CloseRuns`, `Sizes` in Spec/Close.lean | multiplicative error calculus (`Near k`: k roundings; sums of nonnegative numbers keep it, a common factor is removed by the normalisation), lower bound `Away` excludes underflow; induction over the iterations; most believed values by C43 |
| C100 | Convergence in double precision stops where it does in exact arithmetic | as C99, with the iterator model; `stepChange`, `blur` in Spec/Close.lean | scores near the exact ones (C99) give distances near the exact ones: the measures are Lipschitz (cosine for vectors whose largest entry is 1, Lemmas/CosineNear; the first distance, from zeros, is exactly 1), plus the error of computing the distance (C85); induction over the iterations for the existence of the run; the counterexample by a computation on integers (Lemmas/FixedSums) |
| C101 | Explicit bound on the number of iterations | same model; iterates as powers of the positive semidefinite matrix `AᵀDA` on the claims, without normalisation | eigenvector basis: the part of the k-th iterate in the direction of eigenvalue λ moves by λ^k(μ−λ) ≤ μ^(k+1)/(k+1); lower bound of the largest score by the Perron vector; double precision through C100 |
| C102 | JSON text of graphs, animations and data | `json.dumps` (the encoder of Python 3.11) and a reader for JSON texts (string escapes, UTF-16, white space, literals); the text of a number is a parameter | mutual induction over the value: the reader consumes exactly the text of the value; the same for the failure on `NaN`; graphs and animations by C58 |
| C103 | The home page offers exactly what the server accepts | `home_page`, autoescaping, the content of a `script` element, `app.js:2-3` | escaping commutes with `json.dumps`; then C102; the offered lists by cases over the classes; labels of answers by induction over the loop of the server |
| C104 | Accuracy of Investment and PooledInvestment in double precision | as C99, with the bodies of Investment and PooledInvestment; `CloseTo`, `CloseRuns`, `AtLeast` in Spec/Close.lean | interval and error calculus `Ok p q k` (between 2^-p and 2^q, k roundings) through the products, quotients, powers and sums of an iteration; the factors of the normalisation cancel (the update is homogeneous); recursion for the numbers of roundings of trust and belief, solved in closed form |
| C105 | The text of an answer of the server | `jsonify` of Flask 2.2.3 (`Model/AnswerText`): the output object with sorted keys, compact or indented; reading by names (`Member`, `NumbersOf`, `JsReads` in Spec/AnswerText) | mutual induction as in C102 with white space between the parts; sorting is a permutation, and ascending (Props/AnswerSorted); documents by C102; the dictionaries of differences have no repeated keys by an invariant of the loops |
| C106 | UnboundedSums in double precision ranks correctly what is clearly different | `usumsBody`, `rescale`, `rankingVector` at level 2; `ClearlyLess`, `SourcesApart`, `ClaimsApart` (Spec/Separate) | relative error `Near` of each score against a common factor by induction over the iterations (`usums_steps_out`); clearly different scores cannot be swapped (`clearly_lt`); the state of the ordinal iterator agrees with the exact one (`usums_same_steps`) |
| C107 | What is entered in the form reaches the server unchanged | `Model/Http`: `encodeUriQuery` and the parameter serialiser of AngularJS 1.7.7 (read from angular.min.js), `encodeURIComponent`, the browser's treatment of `#` and `'`, `url_decode` of Werkzeug 2.2.3, UTF-8, the routes; `Spec/Http`: `WritesQuery` (all correct ways to write parameters), UTF-8 from Lean's library | the replacements of AngularJS act on the escapes one by one (a text of escapes is cut into units); the reader undoes every `WritesChar`; UTF-8 decoding by arithmetic on the code point; case analysis of the routes |
| C108 | The page shows the results for the matrix entered | no new model; `Spec/Exchange` (`TablesShow`: what the tables must show for a matrix and a result) | composition of C74 (request of the form), C107 (over the wire), C105 (text of the answer) and C82 (page) |
| C109 | Each iteration of CRH in double precision is accurate | the level 2 model of CRH (`crhBody` over `FP binary64`), `Spec.CrhAccurate`/`CrhChain` with the exact update written out | relative errors (`Near`) through squares, row sums, sums in any order and quotients; doubles other than 1 are at least 2^-53 from 1, so squares do not underflow; the logarithm turns the relative error into an absolute one; induction over the loop for the chain |
| C110 | The reader of JSON texts accepts exactly the JSON texts | the reader of C102 against the grammar of RFC 8259 as inductive predicates (Spec/JsonGrammar) | soundness by induction over the fuel of the reader, completeness by mutual induction over the derivation; the fuel suffices because it is twice the length; strings through their UTF-16 code units |
| C111 | Each iteration of TruthFinder in double precision is accurate | TruthFinder without implications in doubles; `TfAccurate` compares two consecutive results (Spec/TfAccurate) | relative errors of 1 - t, log and the sum; the error of the exponential through x exp(-x) <= 1/2; invariant: trust is NaN or a double of at least 1/4 |
| C112 | TruthFinder in double precision stays close to the exact scores | the partial results of `runIter` over doubles against the iterates of the exact step (`tfExact`) | C111 for one iteration; the logarithms of the distances of the trust scores from 1 are wrong by at most `g b` times as much after an iteration as before it, plus rounding; induction over the iterations; geometric series |
| C113 | TruthFinder forgets its initial trust when little is amplified | `amplification` and `startGap` (Spec/Influence) name the contraction rate and the constant; the scores are those of `AlgCfg.run` in exact arithmetic with any implication function. | `-log (1 - trust)` is the right coordinate: the map from these to the confidences is linear with row sums of at most `kappa`, `x -> -log(1 - sigmoid x)` is 1-Lipschitz and so is the mean in these coordinates (Props/Contracts, with `sig_gap`); boundedness by comparison with the run from trust 0; geometric Cauchy sequences. Theorems `C113_forgets`, `C113_converges`, `C113_settles`; the example has contradictory values, default parameters and rate 3/4. |
| C114 | TruthFinder in double precision stops where it does in exact arithmetic | Runs of `AlgCfg.run` in the binary64 arithmetic of `FP` are compared with the run (or the sequence `tfExact`) over the reals; `haze` (Spec/Close) is the error of a distance. | `Follows` (Lemmas/Follows) says that a run's trust scores stay near a given sequence of reals; it yields where a convergence iterator stops. TruthFinder follows `tfExact` by the error recursion of C112; C113 gives convergence of the exact scores. The cosine distance (the default) is Lipschitz for trust scores of at least 1/4 (Lemmas/CosineNear). Theorems `C114_same`, `C114_any`, `C114_settles` for all measures; the example uses cosine, has a conflict and stops within 21 iterations. |
| C115 | CRH settles in double precision | Runs of `AlgCfg.run` in the binary64 arithmetic of `FP`; the smallest threshold (`crhFloor`) and the number of iterations (`crhSteps`) are in Spec/CrhAccurate. | The objective with the best weights is a potential (Lemmas/CrhNear): weights computed for beliefs that are off the best ones by `q` lower it by at least `eps q / 2`, because the rounding errors of an iteration (C109) enter only squared; it is bounded at the start and never negative, so in some iteration the beliefs were nearly the best ones, and then trust hardly changes; for the cosine measure (Lemmas/CrhCosine) some source keeps a trust of at least 1/2, so the angle hardly changes either. Theorem `C115_settles`; the example has a disagreement. |
| C116 | What TruthFinder returns is close to its equilibrium | `Balanced` (Spec/Influence): the published update leaves the scores as they are; runs of `AlgCfg.run` in exact arithmetic and in binary64. | The a posteriori estimate of a contraction in the coordinates `-log (1 - trust)` (C113), `1 - trust` being bounded from below; in doubles with the errors of C112 and the last distance of C114. Theorems `C116_exact`, `C116_double`, `C116_after`; the examples have a conflict and bounds 0.008 and 0.005. |
| C117 | Small changes of the settings of TruthFinder change its scores little | `settingChange` (Spec/Influence) measures the change of the weights; runs of `AlgCfg.run` in exact arithmetic with two settings on the same triples. | Perturbation of a contraction in the coordinates `-log (1 - trust)`: the two confidences differ by `kappa E + D M`, and the step is 1-Lipschitz from confidences to these coordinates (`step_close`). Theorems `C117_runs`, `C117_equilibria`; the example changes the dampening factor from 0.3 to 0.301 on a dataset with contradictory values. |
| C118 | In TruthFinder the influence of data decays with their distance | `AgreeAround` (Spec/Influence), by recursion on the distance; runs of `AlgCfg.run` in exact arithmetic on two lists of triples. | Induction on the distance, for all numbers of iterations at once: the local form of the contraction of C113 (`conf_local`, `trust_local`, `belief_local`), starting from the bound on all `-log (1 - trust)`. Theorem `C118_local`; the example is a row of contradicting sources cut after the fourth. |
