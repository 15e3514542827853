# Formal model of goselect: design

`/repo` (Go, read as text, unchanged) is modelled in Lean 4 under `lean/Verif`.
`properties.jsonl` lists the properties, `MANIFEST.json` says which theorem
proves which property, `seeded/LOG.jsonl` records the mutation tests.

## Layout

* `lean/Verif/Model/*.lean`: the model, function by function.  Every definition
  cites the Go file and lines.
* `lean/Verif/Spec/*.lean`: small independent specifications used in statements.
* `lean/Verif/Proofs/*.lean`: lemmas and invariants.
* `lean/Verif/Props/*.lean`: the property theorems, `Cxx_...`, each with a concrete
  `example` that meets its hypotheses.

## Conventions of the model

* A Go function that may panic returns `Option`; `none` is the panic.  A mutated
  argument is returned as part of the result.
* `int` is `Nat` or `Int` without overflow.  (Go `int` is 64 bit; feature counts and
  level numbers are bounded by slice lengths, so no overflow can occur in them.)
* Slices are lists; where aliasing matters (IterProduct, SAScore, LassoCrdDesc warm
  start) the backing array / heap is modelled explicitly.
* `float64`: code that only compares is modelled over any linear order; arithmetic
  code over a linear ordered field or over the reals (exact arithmetic).  Rounding is
  modelled only in the definitions of its own claims (C111, C135 to C140, C145 to C148, C150);
  all other claims are about exact arithmetic.  Where NaN or infinities decide the
  behaviour (0/0 in CohenKappa, NaN in Highscore) a small type of extended floats is used.
* `mat.Matrix` is a function of row and column with explicit dimensions.
* gonum's SVD is a parameter with its mathematical contract (X = U S V^T, orthonormal
  columns, non-negative values).  Every real matrix has one (`C65_contract`).  gonum
  matrix products are exact products.
* Random streams, `sort.Sort`, `encoding/json` are parameters with their documented
  contract (any stream, any permutation that sorts, lossless encoding of the exported
  structs).
* `encoding/csv`, `fmt.Sprintf("%f", ·)` and `strconv.ParseFloat` are parameters with
  contracts in `Model/Csv.lean`.  `Model/CsvText.lean` and `Model/FloatText.lean` model
  them on characters, written from their documentation and source as known (the
  standard library is not in /repo): no invalid UTF-8, and of the numbers no
  hexadecimal notation or underscores.  The words for infinities and NaN, and
  arithmetic with them: `Model/FloatArith.lean` and `Model/NonFinite.lean`.
* `encoding/json` is modelled on characters in `Model/JsonText.lean` (texts and values)
  and `Model/JsonFiles.lean` (the structures), in the same way.  Not modelled: invalid
  UTF-8, escaped surrogates, the difference of nil and empty slices, integers that do
  not fit, values of a wrong type (which are read in part), and how the shortest digits
  of a number are found: a contract says that they are read as this number.
  `Model/ReadHighscore.lean` reads highscore lists with wrong types, integers that do not
  fit, `null` entries and a nil list told apart.
* Goroutines are processes of a labelled transition system.  Unbuffered channel
  communication is one joint step.  Memory accesses that race are separate steps.

## Trusted base

* The Lean 4 kernel, and the axioms `propext`, `Classical.choice`, `Quot.sound`
  only.  No `sorry`, no own axioms, no `native_decide`, no `bv_decide`.
* That the model definitions describe the Go code they cite (reviewed by hand;
  each simplification is stated at the definition).
* Go runtime semantics (channels, memory model under the interleavings modelled),
  gonum and the standard library are outside the model; floating point rounding is
  outside it except where a claim says otherwise.

## Which code is modelled

`COVERAGE.md` (generated by `tools/coverage.py`) lists for every Go function of
`featselect`, `cmd` and `cmdDepreciated` the definitions that model it, or why it has
none.  `AXIOMS.md` (generated by `tools/axioms.py`) lists the axioms of every theorem
in `MANIFEST.json`.

Not modelled:

* floating point rounding and overflow, except in C111, C135 to C140, C145 to C148 and C150, and
  signed zeros (NaN and infinities are modelled where they decide the behaviour);
* the config file and environment (read by viper, used by no command), of cobra/pflag
  everything but the parsing of options (`Model/Flags.lean`), log output and progress texts
  (the rows of the tables are modelled, their formatting is not);
* drawing: of gonum/plot only the checks of `NewLine`/`NewScatter` are modelled, and the
  points, names and axis ranges that are handed over;
* the text layer of CSV and JSON beyond what is said above;
* what data races do: where the races of C132 and C152 are is proved, what a racing access
  may see is not (the state of a `CLasso` correction that is shared by the workers of
  `LassoCrdDescPath` is any state at each call).  Readers of the highscore
  list are interleaved with the single writes of an insertion (C116), on a sequentially
  consistent memory: that a compiler or processor reorders these accesses is not modelled.

Contracts of libraries that are trusted: `sort.Sort` returns a sorted permutation;
`rand.Shuffle` some permutation; gonum's SVD (above), `mat.EqualApprox`, `mat.Norm(·, 2)`
(Frobenius norm), `NewDense` (panics for zero dimensions); JSON refuses NaN and
infinities and restores what it wrote.

## Findings

Where the code does not do what its name, documentation or callers promise, the claim is
kept as a property, its negation is a theorem (`Cxx_refuted`, with a concrete input), and
`_partial` theorems say what does hold.  In short:

| property | what happens |
|---|---|
| C12 | the optimum can be lost when the highscore is read between `Len` and `BestScore` (torn read) or the queue overflows; both are theorems, as is optimality without them |
| C17, C92 | the root model of the search is never scored, so the best model found by simulated annealing is not in the list that `bnb` saves |
| C18 | the cutoff has no effect |
| C19 | a queue in which all bounds are equal is not shortened |
| C26, C29, C91 | entries of a full simulated-annealing list carry the coefficients of the entry they replaced; `Selected` is the last accepted model, not the best |
| C33, C34 | products of four or more factors alias each other: monomials are lost or repeated |
| C40 | kappa of two full selections is NaN |
| C46 | a full highscore list whose last node is strictly worst loses it when read back |
| C47 | equality ignores the flip flag and column names; a NaN score equals everything |
| C49, C90 | without a first column of ones the intercept is lost |
| C50, C51 | nested lasso misnumbers features unless the target is the last column, normalises the caller's data, and panics on an empty path |
| C55, C56 | coordinate descent reports convergence although an unselected feature violates its condition; the start vector is ignored; the first feature is never selected |
| C62 | a zero first column gives NaN and stops the pursuit at once |
| C68 | criteria of a path whose selections are not ascending mix coefficients and features |
| C73 | more models can be reported as pruned than exist |
| C75 | the elastic net descends only for weights up to the diagonal of the covariance |
| C76 | thresholding does not keep a covariance matrix positive semidefinite |
| C78 | `Gcv` divides the squared residual by 1-h, not by its square |
| C79 | the line of the largest feature is not drawn |
| C81, C82 | the threshold grid is not the documented one, `maxThreshold` is ignored, and fewer than four rows panic |
| C83, C84 | events of the LARS path closer than `lassoTol` make it leave the solution path or stop early |
| C88 | an unknown algorithm name silently gives an empty path |
| C95 | `coeffmin` and `coeffmax` are read before the flags are parsed |
| C98 | a half with a constant column makes the kappa calculation panic |
| C99 | a model that fits exactly makes `bnb` write an empty file |
| C100 | the file of `goselect-nestedlasso` holds normalised data but coefficients in the original units; its criteria belong to neither |
| C101 | the default grid of `goselect-cohenlasso` contains 1, which selects nothing and has a perfect kappa; it can be the result |
| C102 | `cLassoCohen.Eta` is reported as a hyper parameter but never used |
| C103 | `Save` does not report that it could not create the file; the commands dereference nil when the csv file is missing |
| C104 | `LassoLars` never admits a feature with a negative correlation within `lassoTol` of 0, even if it exceeds `lambMin` (default 1e-10 in the lasso command) |
| C105 | `NestedLasso` with `keep` of 1 or more runs for ever when all (three or more) features enter the path |
| C106 | `LassoCrdDesc` never reconsiders a feature that became zero, so that it need not tend to a solution; its KKT check uses the number of features for the number of rows and can keep it running at an exact solution; the zero solution is reported as not converged |
| C107 | `Fit` drops singular values up to 1e-6 whatever the scale of the data: features measured in units that make their numbers tiny are ignored, and the search then reports another best score (`C107_refuted`, `C107_tiny`). |
| C108 | The two algorithms of the lasso command use different scales: lambda of `--type lars` is lambda of `--type cd` times the number of rows, so that the two paths cannot be compared; and `cd` never selects the first feature (`C108_refuted`). |
| C109 | `UnsatisfiedKKTConditions` takes the length of `Xy`, the number of features, for the number of rows, compares with `<` where a violation is `>`, and looks at selected features only: it can list features whose condition holds and misses all violations that matter (`C109_refuted`). |
| C110 | The lasso command follows a change of units except for two things: the zero point of the response when there is no constant column, and units in which a column varies by less than 1e-10, where it panics as for a constant column (`C110_refuted`, `C110_small`). |
| C112 | the CSV file that the README shows as an example is read as a table of zeros, without a message: blanks are not trimmed and fields that are no numbers become 0; `# Age` is a name |
| C113 | `SelectModelSA` with zero or negative sweeps (`sasearch --sweeps 0`) never returns if there are at least two columns |
| C114 | with four or five rows `SelectModelSA` only ever considers the model with the first column: adding a second column before removing the first is forbidden |
| C115 | one NaN or infinite value in the target column (the words are accepted in CSV files) makes `SelectModelSA` run for ever: `sasearch` and `bnb` hang without a message; the lasso command writes a result without nodes if all values of the response are equal |
| C116 | `bnb` saves the highscore list every minute while the search inserts into it, without a lock: `MarshalJSON` can panic (index out of range), write null entries, or write a list that never existed |
| C118 | the highscore list of `SelectModel` is not the list of the best models: nodes whose bound exceeds the *best* score are dropped even if the list has room, so that the second best model may be missing while worse ones are listed |
| C121 | the example command lines in the help texts of `bnb` and `sasearch` use one dash (`-csv`), which the flag library reads as one-letter options: the program ends with an error |
| C122 | `SelectModel` writes an all-false root model into the parameters of its caller; using these again on data with another number of columns panics |
| C129 | reading a highscore file panics, instead of returning an error, for feature numbers out of range, negative numbers of features, `null` entries and capacity 1, and on a zero-value `Highscore` as soon as the file holds a model; the capacity of the file is not enforced on a longer list |
| C132 | a child worker reads the highscore list without synchronisation (line 252 of optimize.go) while the main loop inserts a node, and the score of the first node unordered with the write of the score: data races. All other accesses are ordered |
| C133 | a highscore list into which MaxItems NaN scores are inserted first never takes a number any more; one NaN in the list suffices that a larger number is dropped and a smaller one kept; a NaN inserted first stays first, so BestScore() is NaN for ever |
| C134 | if the first column has missing values (criterion NaN), the first node that SelectModel inserts is NaN: BestScore() is NaN for ever and nothing is pruned any more; a short list can end without any number |
| C135 | in binary64 arithmetic a column with three times 1000000.2 has a standard deviation above 1e-10: it is not refused as constant and is "normalised" to three equal numbers |
| C141 | with the empirical covariance matrix one NaN or infinite value in one feature makes `LassoCrdDesc` return the empty selection for every penalty; with the identity matrix only that feature is lost |
| C142 | with a NaN in one of two columns and columns drawn in turn `SelectModelSA` accepts exactly half of its proposals and never ends; with a NaN in every column it never ends at all |
| C145 | with 1024 or more columns `SelectModel` reports plus infinity pruned models as soon as the first pruned branch is near the root: `math.Pow(2, diff)` overflows |
| C146 | one criterion of minus infinity (an exact fit) or NaN makes all weights of `WeightsFromAIC` NaN |
| C147 | `goselect lasso --type cd --lmin 0` (or any end that is not a positive number, two or more values) runs through all regularisations, which contain NaN, and then writes no file: `json.Marshal` rejects NaN |
| C149 | `Aicc`, the criterion of all commands, is not consistent: however many rows there are, with normal noise a superfluous feature is selected with a probability of at least 1/200; `Bic` is consistent (C131) |
| C150 | `goselect-cohenlasso` with an end of the grid that is not positive runs to the end: the regularisation NaN selects nothing, so its kappa is 1, the largest one; with `-lambMin 0` every line of the summary has `NaN` and kappa 1 |
| C151 | A NaN in the first column of the matrix makes `Omp` choose that column and nothing else: `Argmax` starts with the NaN, which no number exceeds. In any other column it is harmless |
| C152 | `LassoCrdDescPath` has a data race in every call with two or more regularisations: the first ten jobs share one slice as start vector, and `LassoCrdDesc` overwrites it (`copy(x0, betaOld)` has its arguments in the wrong order). The written values are all 0 and never read. There are also races on the counter of a `SparseThresholded` covariance (command `lasso` with a sparse covariance) and, for users of the library, on a `CLasso` correction, whose values are read |
| C154 | The covariance lasso never selects two neighbouring copies of a feature together, although it is documented to promote groups of correlated features: the first sweep starts from zero, where the correction vanishes, and gives the copy the coefficient zero; features at zero are dropped and never visited again. Apart from coefficients with a sum of squares below 1e-10 it computes exactly what `ElasticNet` with the same weight does, because `LassoCrdDesc` calls `Update` with the vector at which it then takes the derivative |
| C155 | A copy of a feature that leaves the LARS path joins at the regularisation at which the original leaves (`last` remembers the number of the feature that was dropped, not its column); its coefficient then has the wrong sign, `tCross` overlooks that because the crossing is at the current regularisation, and the later nodes do not minimise the lasso objective |
| C156 | `Omp` goes on after the fit is as good as it gets: if the tolerance is not reached, it adds the first column, also when this column is a combination of the selected ones. The branch-and-bound and the brute-force search never recommend such a model. |

## Plan per property

* **C01**: Lists of Bool; Gcs/Lcs modelled with slice panic; agreement-of-prefix as spec; induction on the list.
* **C02**: Criteria over the reals with Real.log; case split on the AICc denominator; monotonicity proved by calculus-free inequalities.
* **C03**: bounds modelled with an RSS oracle that is exact least squares (infimum characterisation); uses C01, C02, C05.
* **C04**: SVD contract over real matrices; normal equations then Pythagoras.
* **C05**: Minimality of least squares and zero extension of coefficients; a truncated-SVD counterexample for the negative part.
* **C06**: Queue loop with fuel shown sufficient; invariant on tree prefixes; count 2^n-1.
* **C07**: C06 plus the highscore theorems.
* **C08**: List model of container/list; induction over insertion history, stable-sort specification.
* **C09**: Refinement: the list is a prefix of the stable descending sort of the history.
* **C10**: Induction over histories; panic modelled as none.
* **C11**: From C09; NaN counterexample with extended floats.
* **C12**: Transition system of main, 8 score workers and 8 child workers; invariant on coverage of the search space.
* **C13**: Same system; invariant on pairwise different prefixes.
* **C14**: Same system; token invariant gives an enabled action in each unfinished state.
* **C15**: Same system; potential function bounded by the tree size.
* **C16**: Same system; numInProgress = outstanding work.
* **C17**: Expected to be false for non-zero roots: refutation with a concrete run; partial theorem for the default root.
* **C18**: Expected to be false: CreateChild ignores cutoff (independence theorem); partial theorem with cutoff 0.
* **C19**: List filter over an ordered field; the size claim is expected to be false (equal bounds): refutation and partial theorem.
* **C20**: Ghost counters in the transition system.
* **C21**: Transition system with a mutex and one step for each field access, any number of threads.
* **C22**: Real.logb, Real.rpow.
* **C23**: Heap of items with ids; invariant over histories.
* **C24**: Same heap model.
* **C25**: Same heap model.
* **C26**: Expected to be false: refutation; partial theorem for histories that do not overflow the list.
* **C27**: Walk as a function of the random stream and a cost oracle; invariant.
* **C28**: Same model, result function.
* **C29**: Selected is expected not to be the best: refutation; partial theorem for BestItem.
* **C30**: Bytes as Nat < 256 / UInt8 with shifts and masks; refinement to a Bool list.
* **C31**: Lists; induction.
* **C32**: Matrix as function; sums over lists.
* **C33**: Backing arrays with capacities modelled; expected to be false for r >= 4: refutation, partial theorem for r <= 3, and correctness of a value-semantics version.
* **C34**: Generic in the product enumeration; with the aliasing enumeration for up to 3 columns.
* **C35**: Lists of columns; permutation.
* **C36**: Loops by induction; sort.Sort as any function that returns a sorted permutation.
* **C37**: Real.exp sums.
* **C38**: Real.exp/log.
* **C39**: Lists; induction.
* **C40**: Counts by list filters; rational kappa with the 0/0 case explicit. The claim for two full selections is expected to be false (NaN).
* **C41**: Worker-pool transition system.
* **C42**: Index arithmetic on lists.
* **C43**: Lists of columns.
* **C44**: Text layer as tables of fields; %f as rounding to a multiple of 1e-6; lossy part refuted. Then the text layer itself: the reader of encoding/csv as an automaton over characters, %f and ParseFloat on digits, for any number format; the contracts are theorems.
* **C45**: JSON object as the exported struct; index arithmetic of row-major flattening. Then the text of encoding/json: a writer and a recursive parser with fuel; the parser inverts the writer, and no proper prefix of an object parses.
* **C46**: JSON object as the exported struct; uses the highscore invariants. Text as in C45.
* **C47**: Predicates over an ordered field; list recursion.
* **C48**: Real sums and Real.sqrt.
* **C49**: Algebra on sums; counterexamples without an all-ones bias column.
* **C50**: Index arithmetic; expected to be false unless the target is the last column.
* **C51**: Termination measure; the input is normalised in place (refutation), partial theorem for termination.
* **C52**: Elementary real inequalities.
* **C53**: State machine of sweeps over an ordered field.
* **C54**: KKT conditions imply optimality by convexity.
* **C55**: Expected to be false: a concrete 3-feature instance over the rationals.
* **C56**: Expected to be false: the result does not depend on x0 and coefficient 0 is never changed.
* **C57**: Worker-pool transition system with the nodes array.
* **C58**: Worker-pool transition system with result channels.
* **C59**: Pointwise.
* **C60**: Sums of squares.
* **C61**: Permutation of row indices.
* **C62**: Loop with state (coeff, residual, order); fix-point argument for repeats.
* **C63**: Loop with arbitrary estimators.
* **C64**: Real matrices, normal equations, convexity.
* **C65**: SVD contract.
* **C66**: SVD contract.
* **C67**: Lists; induction over the path.
* **C68**: Lists; sums; order of Selection.
* **C69**: HasDerivAt and algebra.
* **C70**: Pointwise.
* **C71**: List sums.
* **C72**: Transition system of the search goroutine, ticker and main loop.
* **C73**: Same transition system as C12; a counter of models below pruned nodes. Found to be false (the level of the parent is used): refutation and the true bound.
* **C74**: Lists; induction.
* **C75**: As C53/C54 with a quadratic penalty; counterexample for large weights.
* **C76**: Pointwise; a 3x3 counterexample for semidefiniteness.
* **C77**: Permutations of row numbers; means of list sums.
* **C78**: Hat matrix from the SVD contract; leave-one-out identity by the normal equations.
* **C79**, **C80**: Lists; loops by induction.
* **C81**, **C82**: Worker pool of C58 with the grid and the row split.
* **C83**, **C84**: Loop invariant of LARS (KKT conditions on the active set, signs, joining and crossing times); degenerate counterexamples over the rationals.
* **C85**: Unfolding of GetSelection; independence from the memory because the start vector is overwritten.
* **C86**: Invariant of the sweeps for a diagonal matrix.
* **C87**, **C88**, **C89**, **C90**: The lasso command as a relation between flags, data and file; composition of C38, C48, C49, C57, C63, C68.
* **C91**: The sasearch command on top of C23-C29.
* **C92**: Composition of the SA model with the LTS of C12; existence of runs by a greedy schedule.
* **C93**: Potential argument: the prefixes in the queue are an antichain of the search tree.
* **C94**, **C95**: File system as a function, JSON as a parameter; figures as lists of points.
* **C96**: Integer division, EstimateMemory and C93.
* **C97**: Convexity of squares.
* **C98**: Pool of C41 with the targets of C85; C38 grid.
* **C99**: C12 over the extended reals (an ordered type with order-reversing negation).
* **C100**: invariant of the rounds of C51 extended by the criteria of each round; errors of a node before and after
  the change of units.
* **C101**: Cauchy-Schwarz for normalised columns; soft threshold keeps the descent at 0; a schedule that receives
  target 0 first; the rest of the run keeps it, and ends by C98.
* **C102**: no memory by C85; two iterations of the descent computed by hand as a witness.
* **C103**: C44 over a file system of names and texts.
* **C104**: invariant of the loop: active set = initial part of the order of entry; join times computed in closed form.
* **C105**: invariant of endless rounds: the current columns are a permutation of all columns; orthogonal data by C104.
* **C106**: sufficient decrease, compactness of the sublevel set and continuity of a sweep give a limit point that no sweep improves; the visited features are the selected ones.
* **C107**: coefficient vectors on all columns; a change of units and order is a bijection of these that multiplies the sum of squares by a constant; optimality of both searches (C12) gives both inequalities.  Tiny units: a singular value is at most the Frobenius norm.
* **C108**: the lasso objective is convex and strictly so in the predictions, so that a vector exceeds the minimum by half the squared distance of its predictions; with the limit of coordinate descent (C106) and the optimality of LARS nodes (C83) this bounds the distance of the two algorithms.
* **C109**: the covariance matrix times the coefficients is a correlation with the fit; the rule in terms of the data by exchanging sums; soundness for square data by multiplying the condition with the coefficient.
* **C110**: mean and standard deviation of affinely changed columns; hence the same normalised data and the same raw path; coefficients and residuals by the formulas of C49 and C87; the sort sees the criteria only through comparisons.
* **C111**: the coverage invariant of C12 with a value `g m` per model in place of its criterion: bounds and scores at most `g m`. With `g = exact + error` the first model is within twice the error. Relative errors of the RSS are absolute errors of the AICc through the logarithm. `Aicc` with a rounding after every operation (not fused) is monotone for monotone rounding and logarithm.
* **C112**: the texts of tables and of decimal numbers are specified independently of the readers; the automaton of encoding/csv delivers the fields of a table, ParseFloat the value of a decimal number, and rejects every text with a character that is not a letter, digit, point, sign or underscore.
* **C113**: an endless run skips only finitely many draws in a row; once half of the steps of a sweep were accepted every round halves the temperature, which ends the search; before that every sweep doubles it, and above some temperature everything is accepted. Random numbers are streams with a fairness hypothesis (Spec.FairDraws).
* **C114**: an explicit path of proposals from the first column to the model; at temperature 500 numbers below exp(-2C/500), C the largest cost, accept everything. BestItem by C29 and C113.
* **C115**: arithmetic with NaN and infinities (`Model/FloatArith.lean`); what gonum makes of such values is arbitrary. The RSS of every model is then NaN or plus infinity, hence the cost, hence nothing is accepted after the initial MaxFloat64; the temperature only doubles. It is a real number here; as a float64 it reaches plus infinity after about a thousand sweeps, where the acceptance test still compares with NaN. On finite responses the searches agree step by step with those of C113.
* **C116**: the doubly linked list of container/list as memory (`Model/LinkedList.lean`): next, prev, list, Value and len, each write a step; one writer, readers interleaved before every load. Invariant: between two insertions the memory represents the abstract list (`Repr`), within one it is the old list with a prefix of the writes of this insertion done. This discharges, for sequentially consistent memory, the atomicity of `BestScore` and `Len` that the model of `SelectModel` (C12 and others) assumes.
* **C117**: the outcome of an iteration as a function of its random number: accepted on an interval [0, p). Lebesgue measure of the intervals, averaged over the indices, is the Metropolis matrix (`Spec/Metropolis.lean`). Detailed balance pointwise; convergence by Doeblin's argument (`Proofs/MarkovChain.lean`): the path of C114 reaches every model from the first one in as many steps as there are columns, by balance also the way back, and distances of distributions contract.
* **C118**: the coverage invariant of C12 in a sharper form (`Found` in `Proofs/SelectCover.lean`): every model was inserted or lies below a node whose bound exceeds the best score; such a node is determined by the model and the level. The rest is C09. C12 follows from the same invariant.
* **C119**: C12 gives one inequality, the listed nodes (C13) the other, both against C07.
* **C120**: the residuals stay in the span of the sparse columns; `Proofs.Coherence` bounds their correlations
  with columns inside and outside, and the length of a combination from below.
* **C132**: the transition system of C14 with addresses of nodes and a history of accesses (`Model/SelectRace.lean`); invariant: the writes of a node are known to the goroutine that holds it, and everything is known to the main loop or to a busy worker; the accesses of child workers are ordered by the token that they pass on (`Proofs/SelectRaceRun.lean`). Nodes of a list filled before have no addresses (nobody writes them).
* **C133**: scores are `Fl K` (numbers of a linear order, infinities, NaN) with the comparison of IEEE 754; the invariant (`Proofs/HighscoreNan.lean`) counts the NaNs of the history. The invariants of C14-C16 and C132 use no property of the comparison.
* **C134**: the coverage invariant of C12 without any property of the comparison (`Proofs/SelectAny.lean`): each model is still to come, inserted, or below a node whose lower bound was found to exceed minus `BestScore()` of some first part of the insertions. `Model/FlSearch.lean` is the search problem of a finite matrix and any response; gonum on responses that are not finite is the parameter `Blas` of C115.
* **C135**: `Model/Binary64.lean` is rounding to binary64 (nearest, ties to even, subnormal numbers; no overflow, zeros without sign), and `Mean`, `Std`, `NormalizeArray` and `NewNormalizedData` with rounding after every operation. `Proofs/Binary64.lean` proves the properties of rounding from its definition: monotone, exact on the numbers of the format, relative error at most 2^(-53) (plus 2^(-1075)). `math.Sqrt` is correctly rounded (IEEE 754). Fused multiply-add, which Go may use on arm64, ppc64 and s390x, is not modelled.
* **C136**: `Model/RoundedFit.lean` is `PredictOne` and `Rss` with rounding after every operation; the inner products of gonum's `MulVec` are a parameter with an error bound that holds for every order of summation (`C136_dot`: for the sequential one). `math.Pow(x, 2)` is the rounded square (Go computes it with one multiplication of the fractions). `C136_search` combines the bounds with `C111_rounding`.
* **C137**: `Model/Binary64Text.lean` is the conversion of decimal numbers to `float64` in `strconv.ParseFloat`, over the rationals: binary64 with subnormal numbers, nearest even, an error from `2^1024 - 2^970` on. It instantiates the number format that C44, C103, C112 and C115 leave open. `%f` is `formatF` of `Model/FloatText.lean` (six decimals, correctly rounded, nearest even).
* **C138**: instantiates the digits of JSON numbers (`Digits`) with binary64: any choice that meets `Spec.Shortest`, the documented contract of `strconv.AppendFloat(…, -1, 64)`. That such a choice exists is proved (`C138_exists`); the algorithm that finds it is trusted. The bound below which `encoding/json` uses an exponent is the constant `1e-6` rounded to `float64` (`smallestPlain`).
* **C139**: the normalisation of C135 (`Model/Binary64.lean`) with any rounding of relative error `u`. The exact mean and standard deviation (`Spec.mean`, `Spec.variance`) are the specification. Underflow and overflow are excluded by the relative error; `rnd53` is binary64 where they do not occur (`rnd53_eq`).
* **C140**: `Model/CrdDescRounded.lean` rounds every operation of lassoCrdDesc.go:22-139 and of covarianceMatrix.go:18-24 with a function `rnd` of bounded relative error (`rnd53`: double precision with unbounded exponents). Inner products of gonum are a parameter `dot` with the usual error bound, so that any order of summation is covered; the update of covDotBeta is rounded twice (no fused multiply-add, as on amd64). Only the correction PureLasso is covered.
* **C141**: `Model/CrdDescFl.lean` repeats coordinate descent with the rules of IEEE 754 for NaN and infinities (numbers are exact). Inner products are gonum's, known through `Spec.GonumDot` only; the plain sum (`plainDot_ok`) and the sum without zero factors (`skipDot_ok`) meet it.
* **C142**: `Model/AnnealingGap.lean` repeats simulated annealing for a matrix of any values and a finite response. The fit of a design matrix with gaps is a parameter that may panic; the product of a row with a gap and a vector is not a number (`Spec.GapSpreads`). The temperature is exact and has no upper limit.
* **C143**: `Model/LarsGap.lean` repeats the first iteration of the LARS path for data of any values, over numbers with NaN and infinities. The estimator is a parameter; inner products follow `Spec.GonumDot`. That `json.Marshal` fails on values that are not finite is modelled from its documentation. The type cd is not covered, nor is the nested lasso.
* **C144**: the model of C142; random numbers as in C123 (`Spec.RandomDraws`). gonum does not panic on gaps (`Spec.GapData`).
* **C145**: `Model/Log2Float.lean`: `NewLog2Pruned` with a rounding after every operation and overflow at `2 ^ 1024`; `math.Pow(2, ·)` and `math.Log2` are parameters with the error bounds of `Spec.Log2Accurate`. Instance: correctly rounded binary64.
* **C146**: `Model/WeightsFl.lean`: `WeightsFromAIC` with a rounding after every operation, overflow at `2 ^ 1024`, infinities and NaN; `math.Exp` is a parameter with the contracts `Spec.ExpMonotone` and `Spec.ExpAccurate`. Instance: correctly rounded binary64. The exact model `logspace` (C38, and the commands that call it) now has no value when an end of a grid of two or more values is not positive: there the Go program gets NaN.
* **C147**: `Model/LogspaceFl.lean`: `Logspace` with a rounding after every operation; `math.Log` and `math.Exp` are parameters (`Spec.LogspaceAccurate`). `Model/LassoCommandFl.lean`: the lasso command with `--type cd` over `Fl`, up to the question whether `json.Marshal` accepts the nodes; reading, criteria and printing are left out there (they are in `Model/LassoCommand.lean`).
* **C148**: `Model/KappaFl.lean`: `CohenKappa` and `GetCohensKappa` with a rounding after every operation and conversion; the products of counters in `int` do not overflow (at most 2^26 features). The choice of the target is the worker pool of `Model/CohenSequence.lean`.
* **C149**: no new model: criteria and fits of C131 (`aiccExt`, `Spec.HasRss`), `Spec.NormalNoise` is independent noise with Mathlib's `gaussianReal`. `Spec.NewColumn` is the condition that a superfluous column is not a combination of those of the signal.
* **C150**: `Model/CohenCommandFl.lean`: the targets and the workers of the command for any flags. The grid and the kappa are rounded (`logspaceFl`, `getCohensKappaFl`); the coordinate descent is that of C141 (exact finite numbers, NaN and infinities, any `dot`). The pool is that of C41.
* **C151**: `Model/OmpGap.lean`: `Omp` with values `Fl` (NaN, infinities, exact finite numbers). Inner products are a parameter `dot` that is exact for numbers, NaN if NaN meets anything but 0, and NaN or plus infinity for the square of a vector with gaps (`GonumSquare`, met by the plain sum of products); the fit and the predictions of a design matrix with gaps are arbitrary.
* **C152**: The pools of C41, C57 and C58 with the accesses of their goroutines to shared
  memory as events (`Model/PoolRace.lean`; `C152_runs`: the same runs).  Shared memory is
  listed per function; a matrix, a vector or a struct is one location, except that the
  variable part of corrections, covariances and targets is a location of its own.  A job
  makes all accesses that the code can make for it; leaving out some of those that depend
  on values cannot give new races, because an access orders nothing but the events of its
  own goroutine.  The write to the shared start vector depends on nothing but the number
  of features.  Happens-before is that of the Go memory model for `go` statements and
  unbuffered channels (both sides of a meeting are ordered).
* **C153**: adds nothing to the model. `lassoRisk` and `IsLassoMin` are those of C83, `CleanRun` and `OnPath` those of C127,
  the coordinate descent enters through the objective gap of C55. The noise is an arbitrary vector with bounded inner products
  with the columns, or random, independent from row to row and sub-Gaussian (Mathlib's `HasSubgaussianMGF`). The true values `f`
  need not be linear in the features except for the sparse bound.
* **C154**: adds nothing to the model.  `withCLasso` replaces the correction of a call.  `C154_same`
  is a simulation (`SameCL`: the variables of both calls are equal and the two derivatives agree at
  the coefficients of the last iteration); `C154_copy` is an invariant of the first sweep
  (`FirstSweep`) and `zero_forever`, an invariant of the loop.  The specification of the optimum is
  `elasticObjective` of C54.  With rounding the copy may get a coefficient of the size of the
  rounding errors, which the cut-off 1e-16 of the code may or may not remove.

* **C155**: adds nothing to the model.  `Spec.WithCopies X X'` says that `X'` is `X` with further columns, each equal
  to a column of `X`; `Spec.NeverLeaves` that no feature of a node is missing in the next one.  The same estimator is
  used for both runs; it has to solve the normal equations only for the selections of the path without the copies.
  The result rests on exact arithmetic: for a copy of a selected feature one of the two joining times is 0/0, which the
  comparisons of `tJoin` discard, and the other is 0.  In `float64` the first is the quotient of two rounding errors.
* **C156**: `Redundant X m j` says that column `j` is in the model and is a linear combination of the other columns of
  the model; `InSpan` is the same for a set of columns. `C156_score` compares the fits and criteria of a model with and
  without such a feature. `C156_select` and `C156_brute` use the assumptions of C118 (`GoodData`: exact fits, residuals
  not absurdly small); the run of the search is any complete run whose queue did not overflow. For `Omp` the exact
  residuals are orthogonal to a redundant column, so it wins only if all correlations are zero; ties go to column 0.
  In float64 the correlations are then rounding errors, and the column added may be any.
* **C157**: `Conditioned X m lam` is the usual restricted-eigenvalue condition for columns scaled to unit length: the
  squared length of a combination of at most `m` columns is at least `lam` times the sum of the squared lengths of its
  parts. `C157_error` compares the result of `Omp` with any coefficients of any `k` features, so also with the best
  subset; nothing is assumed about how the target arises (unlike C120 and C124). `C157_size` and `C157_log` bound the
  number of features, `C157_coherence` gives `lam` for nearly orthogonal columns.
* **C158**: the quantitative form of C106 for a finite `maxIter`. The comparison is with the vectors that have the same
  coefficients of the features that are not selected, since a dropped feature never returns (C106); over all vectors the
  claim is false. If the loop is left because of the tolerance, C55 and C140 apply instead. The constant contains the
  smallest and largest variance of the features, the mean square of the response, the penalty and the number of features;
  `C158_normalised` evaluates it for data as `NewNormalizedData` produces them. `WellConditioned X μ`: the smallest
  eigenvalue of the covariance matrix without the first feature is at least `μ`; it gives a linear rate.
* **C159**: no new model: states of a running search (C12–C20) instead of finished ones. The models that are better than
  the best listed one are among those still covered by the main loop, a worker or the queue; a pruned subtree is counted
  twice in `Log2NumPruned`, whose count starts at one (C73), which explains `(2 ^ Log2NumPruned - 1) / 2`. The same side
  conditions as in C12: no torn read and no overflow so far, exact bounds.
* **C160**: no new model. `Spec.usedFeatures` are the features with a coefficient that is not 0, `Spec.StretchAtMost` bounds the
  largest eigenvalue of `XᵀX`, and `CompatibleOn`, `NoiseAtMost` are those of C153. The regularisation is that of `LassoLars`.
  Solutions with more features than rows exist (an example is next to C160_rows), so the bound by the number of rows is about
  one solution for each regularisation, not all.
* **C161**: probabilities are counted: fractions of the equally likely sequences of random numbers, one sequence for every
  target (`SampledWith`). In Go all workers draw from one shared source, so which of its numbers a target gets depends on the
  schedule; that the numbers of the targets are fair and independent of each other and of the schedule is an assumption. Targets
  have the same numbers of rows and columns, as in `goselect-cohenlasso`. Arithmetic is exact, and no kappa is NaN (C40).
* **C162**: as C161 with the search of C58; the partitions are those of `splitIndices` for the random numbers of the first
  `numSamples` shuffles, and the shuffle for the partition that is made after the last result is arbitrary. Matrices that cannot
  be split give no result (C82), so the statement is about none there.
* **C163**: the first bound uses only that crossing times are at least `tol` below the regularisation and that there are `p`
  features to join (the measure of C63). For non-degenerate runs (`UniqueMax`, `LarsStepOk` of C83) every iteration is a piece
  of the path: between its ends the signs of the coefficients are strict, at its lower end a feature joins or leaves. Features
  and signs determine the piece, so none comes twice, and not with all signs reversed either. `(3^p - 1)/2` is the known worst
  case of the lasso path; that it is attained is proved for two features only (C163_attained, columns of different lengths).
* **C164**: `S` is any matrix; for the probability it is the mean of the products of the columns over a finite population, as the
  code computes covariances (it does not subtract means). Rows are drawn independently, each row of the population being equally
  likely; probabilities are fractions of all draws. The threshold is any above `e`, not that of `L2ConsistentCovTO` (C58, C162).
* **C165**: competitors have the coefficients of the result for the first feature and for those of at most 1e-16 in magnitude.
  `slack` is the error in the optimality condition that the convergence test leaves. The bounds come from the strong convexity
  of the elastic net, so they do not need independent columns, as C158 does for the lasso.

* **C166**: `BestElastic` is a spec notion (the best vector among those that are zero on a set of features). `C166_best` is about
  that notion alone; `C166_runs` is about the code and needs that the selections agree, because C55 shows that the code may drop
  features for good.

* **C167**: a random selection of size b is one of the b-element subsets of the features in ascending order (`ascending`; kappa does
  not depend on the order), all equally likely. The overlap then has the hypergeometric mean and variance, which
  `sum_overlap` and `sum_overlap_sq` derive by counting.

* **C168**: no hypothesis on the singular values; the bound of `C168_nested` is what remains of C05 when `Fit` discards singular
  values (`C05_truncation_refutes` is an instance).
* **C169**: `C12_regression` without its hypothesis on singular values. The error of a truncated fit is one-sided (its residual sum of
  squares is never too small), hence no factor two as in C111; the example has a singular value of 1e-7, which is discarded.
* **C170**: "the same sums" are `SameSums`: the products of all pairs of columns, of the columns with the target, and of the target
  with itself. For the searches the states of two runs are equal, not only the results. With C107 (units, order of the columns) this
  says what the results depend on; in contrast to C107 truncated fits are included.
* **C171** needs no assumption that fits are exact: from a decomposition of one design matrix a decomposition of the reordered one is written down,
  and C170 says that the fit does not depend on the decomposition.  With units other than 1 and -1 the discarded singular values may differ
  (C107).
* **C172**: `NoCloseFit` (no model fits better than `rho`) is needed because AICc has the logarithm of the residual sum of squares, which is
  sensitive near 0.  `ClearWinner` is about the list of `BruteForceSelect` for the first response; the conclusion is about the lists of
  `BruteForceSelect` and `SelectModel` for the second.
* **C173** compares choices of criteria, not values: `BestBy` is about any set of candidates (features, residual sum of squares).  Ties are
  included: every best candidate by one criterion is compared to every best candidate by the other.  For Bic against Aicc some condition on
  the number of features is needed, since the correction of Aicc grows without bound near as many features as data points.
* **C174**: `ClearChoice` compares squared correlations multiplied by the squared lengths of the columns, so that no roots or quotients are needed;
  `resAt` are the residuals of the fit of the features chosen so far.  That the tolerance is reached excludes runs that end by choosing a
  feature again, where the choice is among ties.
* **C175**: on the model of C37 and C97.  `IsAverage` is the composition of `WeightsFromAIC`, `LassoNodesSlice2SparsCoeff` and
  `WeightedAveragedCoeff` as a user of a path calls them; the bounds are for coefficients and for predictions on any matrix.
* **C176**: `Repeated` says that row `i` of the repeated data is row `i mod n` of the data; by C170 and C171 the order does not matter.
  That the fits of the repeated data are not truncated is derived: their singular values are those of the data times the root of `k`.
* **C177**: `ColumnsOf` are the columns kept, `SameModel` says that a model over these is a model over all columns; `Reduced` is the
  comparison of the best nodes.  The fits are compared through the sums of products (C170), since the library may find another
  decomposition when the model is fitted again.
* **C178**: `ColumnsOf` as in C177. A minimiser on the kept columns is extended by 0 to all columns (`ColumnsOf.risk`); the paths are compared
  with `CleanRun` (C127) and the uniqueness of C108.
* **C179**: `ColumnsOf` as in C177. Unlike in C174 the choices need not be clear: the columns kept are in ascending order, so the first of
  several equally correlated columns stays the first (`pick_columns`), and the residuals are equal (C177).
* **C180**: `Repeated` as in C176. The normalised correlations of the repeated data are equal to those of the data, also where a norm is 0
  (`ompProj_repeated`), so all choices agree (`SameOmp`). That the fits of the repeated data are not truncated is derived as in C176.
* **C181**: `RepeatedRows` is `Repeated` of C176 for responses as functions, over any ordered field. The paths are compared as in C178. The
  iterates of `LassoCrdDesc` are not compared, since `UnsatisfiedKKTConditions` does not divide by the number of rows.
* **C182**: two runs on the same data make the same choices (`SameOmp` of C180 with both data sets equal), so only their lengths differ.
* **C183**: `lambMin` only occurs in the test of the loop, so two runs agree until the regularisation is at most the larger value; as the regularisation never increases, all nodes added later are the ones that the filter removes. The estimator is arbitrary, and no condition on degenerate iterations is needed.

## Outcome per property

Generated from `tools/status.py` by `tools/outcomes.py`.

<!-- outcomes -->
* **C01** Gcs/Lcs are the extreme models of a subtree: proved. Capacity of the argument slice is taken to be its length.
* **C02** AIC/AICc/BIC grow with the number of features and with the RSS: proved. Over the reals; positive RSS.
* **C03** BoundsAIC/BoundsAICC bracket every sub-model: proved. C03_rssTol_needed shows that the hypothesis on RssTol cannot be dropped. The upper bound needs RSS <= MaxFloat64.
* **C04** Fit returns a least-squares minimiser: proved. The SVD is a parameter with its contract; singular values are 0 or above 1e-6.
* **C05** Adding features never increases the least-squares RSS: proved. C05_truncation_refutes gives the failure caused by truncation.
* **C06** BruteForceSelect visits every non-empty model exactly once: proved. Fit, Rss and Aicc are arbitrary functions of the model; scores from any linear order.
* **C07** BruteForceSelect ranks by AICc: proved. Fit, Rss and Aicc are arbitrary functions of the model; scores from any linear order.
* **C08** A highscore list is always sorted: proved. Scores from any linear order (no NaN; with NaN: C133).
* **C09** A highscore list keeps the top scores: proved. Scores from any linear order (no NaN; with NaN: C133).
* **C10** Highscore capacity and panics: proved. Scores from any linear order (no NaN).
* **C11** BestScore is the maximum ever inserted: proved. Scores from any linear order; C11_nan_refuted shows that NaN scores break the claim; what holds then is C133.
* **C12** SelectModel finds the best model under every schedule: proved. Bounds validity is a hypothesis (C03 gives it for exact fits). C12_torn_read_refutes, C12_root_rows_refutes, C12_overflow_refutes show that the three side conditions are needed.
* **C13** SelectModel reports each model at most once with its own score: proved. Fit, Rss, Aicc and bounds are arbitrary functions.
* **C14** SelectModel never deadlocks: proved. For every comparison of criterion values, so also with NaN among them; the same holds for C15 and C16.
* **C15** SelectModel terminates under fair scheduling: proved. Strong fairness of the select statement is assumed in C15_terminates; C15_unfair_run shows that it is needed.
* **C16** SelectModel exits exactly when all work is done and never sends on a closed channel: proved. For MaxItems other than 1; C16_capacity_one_panics covers 1.
* **C17** The root model passed to SelectModel is itself considered: partial. False as stated: C17_refuted. C17_root_never_listed says what happens, C17_root_partial gives the claim when another model is at least as good.
* **C18** Cutoff changes which nodes are pruned: partial. False as stated: C18_refuted. C18_cutoff_ignored shows that the cutoff has no effect, C18_prune_rule_partial gives the actual rule.
* **C19** Queue eviction is safe: partial. Order, mean rule and non-emptiness proved. The size claim is false: C19_bound_refuted; C19_shrinks_partial gives what holds.
* **C20** Search progress is monotone and exact: proved.
* **C21** SearchProgress.Get returns a consistent snapshot: proved. The RWMutex is a labelled transition system; one interleaving step per shared access.
* **C22** NewLog2Pruned adds counts in the log domain: proved. Exact real arithmetic.
* **C23** The SA highscore list has no duplicates and respects its capacity: proved.
* **C24** BestItem and WorstItem of the SA list are right: proved. Scores from any linear order (no NaN).
* **C25** The SA list keeps the best models: proved. Equal selections have equal scores, as in SelectModelSA.
* **C26** Coeff of an SA list entry belongs to its Selection: partial. False as stated: C26_refuted (coefficients of an overwritten entry survive). C26_selection_score holds always, C26_no_overflow_partial gives the full claim as long as the list does not overflow.
* **C27** The simulated-annealing walk stays in the legal region: proved. Exact real arithmetic; costs at most MaxFloat64.
* **C28** SelectModelSA returns matching Selected and Coeff: proved. Exact real arithmetic; costs at most MaxFloat64.
* **C29** The SA result records the best accepted model: partial. BestItem has the smallest accepted cost. Selected need not be that model: C29_refuted.
* **C30** The bit array Model behaves like an array of booleans: proved.
* **C31** Selections and models are inverse representations: proved. The selection written by MarshalJSON is part of C46.
* **C32** The design matrix contains exactly the selected columns in order: proved.
* **C33** IterProduct returns the Cartesian power: partial. Holds for repeat up to 3 (C33_product_partial). From repeat 4 on append writes into spare capacity shared between items and products are lost (C33_refuted); C33_exact says which positions are overwritten; number and length of the results hold for all inputs (C33_count, C33_rows).
* **C34** The lazy power matrix lists each monomial once: partial. Holds for matrices with up to three columns (C34_monomials_partial). With four columns the power table produced by IterProduct is wrong (C34_refuted): four or five columns get p+1 copies of the p-th power of column 3 (C34_four_columns, C34_four_five_columns), six or more get nothing (C34_six_columns).
* **C35** RearrangeDense permutes columns: proved.
* **C36** Argsort, Argmin and Argmax return right indices: proved.
* **C37** AIC weights are a probability distribution: proved.
* **C38** Logspace is a geometric progression from min to max: proved.
* **C39** UnionInt is a set union that keeps order: proved.
* **C40** Cohen's kappa is symmetric, at most 1, and 1 for identical selections: partial. Two selections of all features make the denominator zero: the result is NaN (C40_full_refuted). The range holds in all other cases.
* **C41** CalculateCohenSequence evaluates every target once and returns the best: proved. Goroutines that outlive the call are not a deadlock of the caller; see DESIGN.md.
* **C42** Feature names and numbers are inverse: proved.
* **C43** GetSubset keeps columns, names and target: proved.
* **C44** CSV files round-trip: proved. C44_round_trip and C44_write_again hold for any CSV text layer and number format that meet the contracts; C44_text_round_trip and C44_text_values are for the models of encoding/csv, %f and ParseFloat (finite numbers, any format in which decimal numbers are converted to a closest number). C44_text_crlf: the line break \r\n in a name is read as \n.
* **C45** Dataset JSON round-trips: proved. For every JSON codec that reads what it writes (C45_round_trip), and for the text format of encoding/json itself (C45_text_round_trip); there the only contract is that the digits written for a number are read as this number.
* **C46** Node and Highscore JSON round-trip: partial. Nodes: full. Lists: false for full lists whose last node is strictly worst (C46_refuted); they lose exactly that node (C46_full_list); all other lists are restored (C46_list_partial, C46_distinct). Also on the level of characters (C46_text_...), where a text that was cut off or continued is an error (C46_text_damaged).
* **C47** Equality tests are reflexive, symmetric and sound: partial. Reflexive, symmetric, panic free. WasFlipped and the column names are not compared (C47_refuted_flip, C47_refuted_names), and a NaN score equals every score (C47_refuted_nan).
* **C48** Normalisation gives zero mean and unit variance: proved. Exact for real numbers. The standard deviation threshold 1e-10 is part of the statement. Rounding is not modelled.
* **C49** Un-normalised coefficients predict what the normalised ones predict: partial. Holds when the first column of the design matrix is all ones. C49_refuted and C49_otherwise show that without such a column the constant term is lost or scaled.
* **C50** Nested lasso reports features by their original number: partial. Proved for a target in the last column, and for every round after the first: the reported paths are the LARS paths of nested column sets, numbered as in the original. False for other target columns (C50_refuted): MapSelectionByName looks columns up in the names, which include the target.
* **C51** Nested lasso shrinks and stops, and leaves its input alone: partial. Shrinking, termination, the number of rounds (C51_count) and (under explicit conditions) normal return are proved. False: the caller's matrix and response are normalised in place by line 69 (C51_refuted); an empty path with more than two features to keep panics (C51_empty_path).
* **C52** SoftThreshold solves the one-dimensional lasso problem: proved. Over any linear ordered field. Rounding is not modelled.
* **C53** Every coordinate update decreases the lasso objective: proved. Exact arithmetic, empirical covariance matrix, pure lasso for the objective; the covDotBeta invariant holds for every correction.
* **C54** A fixed point of coordinate descent is a lasso solution: proved. Exact arithmetic, empirical covariance matrix.
* **C55** LassoCrdDesc returns an optimal solution when it reports convergence: partial. Holds for the selected features (C55_selected_partial). Missing: the features that are not selected; C55_refuted gives normalised data for which convergence is reported while an unselected feature violates its condition by a factor of two. C55_gap_partial bounds how far the result is from optimal in terms of the largest violation among the unselected features.
* **C56** LassoCrdDesc starts from x0 and may select any feature: partial. False: the starting vector is ignored and overwritten with zeros, and the first feature is never selected (C56_x0_ignored, C56_x0_overwritten, C56_first_feature, C56_refuted). Every other feature can be selected (C56_orthogonal_partial).
* **C57** LassoCrdDescPath returns one solution per lambda in decreasing order under every schedule: proved. Worker pool as a transition system over all schedules. Solving one problem is a relation that PathSolve constrains (unique indices in range, one coefficient per index); C57_worker shows coordinate descent meets it for every correction and correction state. A correction with state shared by the workers (CLasso) is read and written without synchronisation; that data race is outside the model. Workers are never stopped (workChan is not closed).
* **C58** L2ConsistentCovTO averages each grid point over exactly numSamples partitions: proved. Worker pool over all schedules; random partitions are any sequence. Exact arithmetic, so the order in which results arrive does not matter. After the last result one more workload is handed out; its worker and the idle ones are never stopped (workChannel is not closed). The grid needs a point (step at most 9), see C82.
* **C59** Thresholding is idempotent and removes exactly the small entries: proved.
* **C60** Covariance matrices are symmetric and positive semidefinite: proved. Exact arithmetic.
* **C61** Random row splits partition the rows: proved. Any permutation as outcome of the shuffle. The call panics when one part would be empty (C61_panic).
* **C62** Orthogonal matching pursuit returns a consistent result: partial. Distinct features, zero coefficients outside Order, the fit (least squares when untruncated) on Order, greedy choice and no iteration after the tolerance is reached are proved for all data. The clause on early stops is refuted: a zero first column gives NaN at index 0, Argmax then always returns 0 and the run stops with Order [0]. For non-zero columns and exact fits an early stop means the tolerance was reached or no coefficients do better.
* **C63** A LARS path is well formed: proved. For every estimator, also one with state. C63_terminates: the loop ends for lambMin >= 0. Exact arithmetic with IEEE division by zero.
* **C64** LARS nodes satisfy the equicorrelation condition: proved. Path level: every selected feature of every node has correlation plus or minus lambda; optimality from sign and bound conditions; MorsePenroseCD proved to solve the normal equations under the SVD contract.
* **C65** PseudoInverse satisfies the Moore-Penrose equations: proved. Exact arithmetic, SVD contract. Singular values between 0 and 1e-3 are used unreciprocated in MorsePenroseCD.C (C65_small_values).  Every real matrix has a decomposition meeting the contract (C65_contract) and the result does not depend on which one is found (C65_any_decomposition).
* **C66** DenumMatrixGcv is the hat matrix: proved. Exact arithmetic, SVD contract.
* **C67** PickMostRelevantFeatures lists features by entry: proved. The result can be longer than numFeat; 0 and negative numbers give the first node.
* **C68** Path criteria pair each coefficient with its own feature: partial. ExtractPath is proved. GetCriteria is proved for ascending selections and false for others (C68_refuted): columns are taken in ascending order, coefficients as listed.
* **C69** Lasso corrections are derivatives of their penalties: proved. CLasso up to its own cut-off 1e-10 on the squared norm.
* **C70** Views read through to the underlying data: proved.
* **C71** WeightedAveragedCoeff is the weighted sum of the full coefficient vectors: proved.
* **C72** bnb command finishes and saves the final list: proved. Transition system of the search goroutine, the ticker and the main loop over all schedules; C72_terminates under fair scheduling with any number of ticks, C72_bounded without fairness. Periodic saves race with insertions and may write anything; the final save is exact. Search without panic, writing the file without error.
* **C73** The reported number of pruned models is at most the number of models: partial. False as stated: C73_refuted; C73_reported_pruned_partial gives the bound 2*2^ncols - 1, which is attained (C73_refuted).
* **C74** Integer slice helpers return what they say for every slice: proved.
* **C75** The elastic net correction solves the elastic net problem: partial. Descent holds when Lamb is at most every diagonal entry of the covariance matrix; false otherwise (C75_refuted): with one feature besides the first and a large weight the coefficient and the objective grow without bound with the number of iterations (C75_diverges). The fixed point part holds for every weight (C75_fixed_point).
* **C76** Thresholded covariance matrices keep the large entries and stay positive semidefinite: partial. Entries, symmetry and the panic are proved; positive semidefiniteness is false (C76_refuted) and proved only for thresholds that remove no non-zero entry and for results that are diagonally dominant (C76_dominant_partial).
* **C77** GetCohensKappa is the mean kappa of complementary halves: proved. GetSelection is a function of the indices; exact arithmetic.
* **C78** Gcv is the leave-one-out cross-validation score: partial. The full statement is false (C78_refuted): the squared residual is divided by 1-h instead of its square. Proved: the leave-one-out residual is e/(1-h), and Gcv lies between the root mean square residual and the leave-one-out score.
* **C79** PlotPath draws every feature of the path: partial. False (C79_refuted, C79_last_missing): the largest feature never has a line. All other lines are proved right.
* **C80** The entrance line has each feature at its largest regularization: proved. Logarithms of the regularization above -MaxFloat64; feature numbers up to MaxInt32. A path without features panics (C80_panic).
* **C81** L2ConsistentCovTO searches the documented grid up to maxThreshold: partial. False in both parts (C81_refuted): the grid is exp(-10 + j*step), values between exp(-10) and exp(-1) (C81_range_partial), and maxThreshold is ignored.
* **C82** L2ConsistentCovTO returns a threshold for every matrix that can be split: partial. Proved for four or more rows; false for two and three rows (C82_few_rows, C82_refuted), where the first part has no rows and the matrix constructor panics. A step above 9 leaves an empty grid (C82_large_step).
* **C83** LARS nodes solve the lasso problem: partial. Proved when no iteration is degenerate (independent columns, no event within the tolerance of the current lambda, one event at a time); false in general: with two joining times closer than lassoTol a zero crossing is ignored and all later nodes have a wrong sign.
* **C84** LARS paths reach lambMin: partial. Proved when no iteration is degenerate; false in general: with two joining times closer than lassoTol the loop stops far above lambMin.
* **C85** Lasso selections of a subsample are a function of the sampled rows: proved. Exact arithmetic; a constant sampled response (NaN) selects nothing. C85_thresholded_panics: with the thresholded covariance of the full data every sample of another size panics, so that Cohen's kappa cannot be used with it.
* **C86** The identity covariance decouples the lasso: proved. Exact arithmetic; Identity.Get and PureLasso.
* **C87** The lasso command saves the data as read and criteria that match it: proved. Exact arithmetic; response not constant. Covers LARS, coordinate descent with the three covariances, and unknown algorithms; the path of coordinate descent under every schedule.
* **C88** The lasso command writes a file unless a node fits exactly: proved. Exact arithmetic. C88_lars asks for exact, untruncated decompositions and a first column that is constant or has a standard deviation of at least 1e-10.
* **C89** The printed table ranks the best models of the path: proved. Any sort that is a permutation without inversions on values other than NaN.
* **C90** Saved lasso models have the errors of the lasso fit: partial. Proved for data with a first column of ones. False otherwise (C90_refuted): without a constant column the intercept is lost and n*bias^2 is added to the errors of every node (C90_offset), so that the saved criteria do not rank the fits.
* **C91** sasearch saves each listed model with its own fit: partial. Proved: number, distinctness, scores, BestItem, and the coefficients of all entries when at most ten different models were accepted, those of BestItem when no two models tie. False otherwise (C91_refuted): a better eleventh model is saved with the coefficients of the worst of the first ten (C91_stale), even with the wrong number of them.
* **C92** The best model that the bnb command saves is optimal: partial. Proved for every model except the one that simulated annealing found, for data that fit without numerical trouble and have fewer columns than rows, a queue of at least 2^(ncols-1) and no torn read. False for the start model (C92_refuted): it is never in the saved list (C92_initial_omitted), so that an optimum found by the first search is lost (C92_best_lost).
* **C93** A queue of 2^(columns-1) nodes never overflows: proved. C93_optimal inherits the torn-read exception of C12.
* **C94** A saved lasso file is loaded and plotted as it was written: proved. For every JSON codec that reads what it writes (C94_load), and for the text format of encoding/json itself with numbers rounded to a number format (C94_text_load).  Finite numbers only.
* **C95** goselect-plotlasso draws the path with the requested range: partial. Proved: which figures are drawn and their points (C95_figures_partial, the last feature of the path excepted, see C79).  False for the range (C95_refuted): coeffmin and coeffmax are read before the flags are parsed and have no effect (C95_range_ignored).
* **C96** goselect-mem prints the largest queue that fits in memory: proved. Memory is what EstimateMemory counts, not what the Go runtime allocates.
* **C97** Averaging the models of a path averages their predictions: proved. Akaike weights are proportional to exp(-AIC/2); the code uses exp(-AIC) (C97_squared_akaike).
* **C98** goselect-cohenlasso ranks every regularisation of its grid: partial. Proved except for the absence of panics, which is false (C98_refuted).  The command can panic exactly when some division of the rows in halves leaves a half without rows or with a constant column (C98_panics), e.g. always when a column has a single deviating value (C98_single_deviation).  Without such a division it cannot panic and ends (C98_ends, C98_progress).  Finite normalised response assumed.
* **C99** Exact fits do not hurt the branch-and-bound command: partial. Proved: optimality with exact fits (C99_optimal, for data with fewer columns than rows or RSS at least RssTol), when the file can be read (C99_file_partial: iff no listed model, nor any model below it, fits exactly) and that it then restores the list (C99_reload_partial, capacity as in C46).  False in general (C99_refuted): if a model other than the root fits exactly, every run ends with an empty file (C99_lost), because the error of json.Marshal is ignored.
* **C100** The nested lasso file is consistent: partial. Proved: the saved data set is the normalised one (C100_data); the criteria are those of the saved coefficients with their best intercept on the data of the user, the squared error divided by the variance of the response and the intercept not counted (C100_criteria_partial); no file is written iff a node fits exactly up to an intercept (C100_written), which LassoLars with exact decompositions and no truncated singular value rules out (C100_always).  The number of paths with the default fraction is bounded (C100_default_paths).  False as stated (C100_refuted): the coefficients are in the units of the user, the data set is not, so neither the saved data nor the original data give the saved criteria.  C100_criteria_partial and later assume the target in the last column and a first column that is constant or varies by at least 1e-10.
* **C101** The regularisation chosen by agreement selects features: partial. False as stated (C101_refuted): on normalised data a regularisation of at least 1 selects nothing, whatever the rows (C101_large), two empty selections agree perfectly (C101_kappa), and the largest regularisation of the default grid is 1; it is evaluated first, and under some schedule it is returned (C101_nothing).  Proved: with a regularisation of at least 1 in the grid, the one that is returned selects the same features in both halves of all its samples (C101_result_partial).  Finite normalised response assumed.
* **C102** The hyper parameters of a kappa target are those that act: partial. False as stated (C102_refuted): the field Eta is reported but never read (C102_eta_unused); the eta that acts is that of the correction.  Proved when the caller gives the correction the reported eta (C102_determined_partial).  C102_reported, C102_unset, C102_set and C102_no_iterations hold as stated; C102_set is for the empirical covariance and rows of the data.  C102_new, C102_getX and C102_string hold as stated; C102_string needs a number format without spaces, as %5.3e.
* **C103** A saved data set can be read from its file: partial. False as stated (C103_refuted): if the file cannot be created, Save returns as if it had succeeded (C103_silent).  The rest is proved: the round trip for a file that can be created (C103_round_trip_partial), other files, the panics of Save, and nil for a missing file with the panic of the commands (C103_missing).  The text formats are parameters with the contracts of C44; with the models of the standard library: C103_text_round_trip_partial.
* **C104** On orthogonal columns LassoLars is soft thresholding: partial. False as stated (C104_refuted): a negative correlation between -lassoTol and -lambMin never enters the path, with normalised data and the default limit of the lasso command.  Proved for data without such a correlation (C104_path_partial, C104_nodes_partial).  C104_estimator: MorsePenroseCD is such an estimator if the squared column lengths are 0 or above 1e-6, under the contract of the SVD.
* **C105** Nested lasso ends for every keep fraction: partial. False for fractions of 1 or more (C105_refuted): if all of three or more features enter the path, every round keeps all of them and the loop never ends (C105_endless; C105_orthogonal for every orthogonal data set whose features are all relevant; C105_command for the command with any singular value decompositions meeting the contract, which exist).  Proved for fractions below 1 (C51_returns) and, for every fraction, if each path leaves out a feature (C105_returns_partial).
* **C106** With enough iterations LassoCrdDesc stops at a lasso solution: partial. False as stated.  A feature that an iteration leaves at zero never comes back (C106_never_back), so that the result can stay away from the minimum for every tolerance and limit (C106_refuted, normalised data); with more features than rows the loop can go on for ever at an exact solution (C106_no_stop); an exact zero solution always gives the warning (C106_warning).  Proved: without a tolerance the objective tends to the minimum over the vectors that agree with the result on the features that are not selected (C106_limit_partial), over all if all stay selected (C106_solution_partial); with a tolerance a bound on the number of iterations until one changes little or nothing is selected (C106_stops_partial).
* **C107** The model found does not depend on units and order: partial. Proved for data whose fits are not truncated in either of the units (C107_fit_partial, C107_search_partial, C107_ranking_partial).  False in general (C107_refuted): Fit drops singular values up to 1e-6, so that features in units that make their numbers tiny are ignored; if all are tiny, every model is as good as none (C107_tiny).
* **C108** LassoLars and LassoCrdDesc agree: partial. False as stated (C108_refuted): the regularisation of LassoLars is that of LassoCrdDesc times the number of rows (C108_scale), and LassoCrdDesc never uses the first feature, so that no regularisation gives the coefficients of a node that uses it.  Uniqueness is proved (C108_unique).  With the regularisation divided by the number of rows coordinate descent converges to the node if the features it gives up have the coefficient they have in the node (C108_agree_partial, C108_path_partial), and on orthogonal columns, zero at most the first, both agree exactly on all features but the first (C108_orthogonal_partial).
* **C109** UnsatisfiedKKTConditions lists the violated conditions: partial. False as stated (C109_refuted): the fit is scaled with the number of features instead of the number of rows, so that a feature whose condition holds can be listed; features without a coefficient and features whose coefficient is too small are never listed.  C109_rule says what is listed.  Proved: with as many features as rows and a lasso or elastic net problem every listed feature violates its condition (C109_sound_partial).
* **C110** The lasso command does not depend on units: partial. False in general (C110_refuted): without a constant column a shift of the response is lost, and in units in which the standard deviation of a column is below 1e-10 the command panics (C110_small: for every data set with two columns there are such units).  Proved: the path follows any change of units as long as no column but a constant first one is nearly constant (C110_path_partial); predictions, criteria, table and file follow with a first column of ones, or without a constant first column when only scales change (C110_units_partial).
* **C111** SelectModel tolerates rounding errors: proved. For any search with errors at most e: C111_within; for data with rounding in sums of squares and criterion: C111_rounding; the factor two is attained: C111_sharp; monotone rounding of the criterion: C111_rounded_aicc_mono and C111_monotone. C111_exact_search ties the search with computed numbers to that of C12. How large the errors are: C136.
* **C112** CSV files are read as the tables they show: partial. False as stated (C112_refuted): blanks are not ignored. A field with a blank is no number (C112_no_number) and is read as 0 without a message, so the file that the README gives as an example of a valid file is read as zeros only, with names that contain # and blanks (C112_readme, C112_blanks). Without blanks in the numbers the claim is proved: C112_numbers_partial, C112_table, C112_numeral, C112_exact; lines of different lengths: C112_ragged. encoding/csv and ParseFloat as modelled in Model/CsvText.lean and Model/FloatText.lean.
* **C113** Simulated annealing ends: partial. False as stated (C113_refuted): with no or a negative number of sweeps and at least two columns the search never ends, whatever the random numbers (C113_never).  Proved: with at least one sweep, or with a single column, it returns (C113_returns_partial); C113_iff says exactly when.
* **C114** Simulated annealing can find every model of its search space: partial. False as stated (C114_refuted): with fewer than six rows the search never leaves the model with the first column only (C114_few_rows), although for four and five rows every model with one feature belongs to its search space.  Proved for at least six rows: C114_reached_partial, C114_best_partial.
* **C115** Missing values in the target column are noticed: partial. False as stated (C115_refuted): with one value NaN or infinite in the response SelectModelSA never accepts a model and never returns, whatever the random numbers and whatever gonum computes from such values (C115_never, C115_no_result), so sasearch and bnb hang without a message; with Aicc it returns if and only if all values are finite (C115_iff).  Proved: which texts are read as such values (C115_words, C115_read), and that the lasso command writes no file (C115_lasso_partial).  A response of equal values is normalised to NaN: then a result without nodes is written (C115_constant); when the lasso loop is entered: C115_starts.
* **C116** Reading and saving the highscore list while the search inserts: partial. Proved on the memory of container/list, write by write: insertions never panic and refine those of the list model (C116_insert), BestScore returns the best score of a list of some moment within the call (C116_best), Len (C116_len), and MarshalJSON is right while nothing is inserted (C116_quiet).  False for MarshalJSON during an insertion (C116_refuted): it can panic with an index out of range, save null entries, or save a list that never was; C116_saved_partial: what it saves, if it does not panic, are inserted nodes in order of their scores, followed by null entries.
* **C117** At a given temperature simulated annealing is the Metropolis chain: proved. The kernel of one iteration as Lebesgue measure of the accepting random numbers averaged over the indices (C117_metropolis), detailed balance and stationarity (C117_boltzmann), convergence from every model for at least six rows (C117_converges), concentration (C117_low_temperature).  Before the first accepted model the current cost is MaxFloat64 and the hypothesis acc not empty fails.
* **C118** The list of SelectModel contains the best models: partial. False as stated (C118_refuted): the second best model can be missing from a list with room for it that contains worse models, because nodes are compared with the best score instead of the worst listed one; C118_last_column: on data, a model that differs from its parent in the last column is dropped exactly if its AICc exceeds the best one so far.  C118_listed_partial: a model is listed, or the list is full of models at least as good, if no bound on the way to it exceeds the best AICc.
* **C119** SelectModel and BruteForceSelect agree: proved. From C12, C13, C06 and C07; C119_regression is the statement for data sets.
* **C120** Orthogonal matching pursuit finds sparse signals: proved. C120_support, C120_error and C120_exact; C120_coherent shows a data set beyond the condition on which the first choice is wrong, whatever the decomposition and the tolerance.
* **C121** The command lines of the help texts work: partial. False for the lines of the help texts (C121_refuted): options with one dash are read letter by letter, so that -csv is the unknown option c.  With two dashes everything holds (C121_two_dashes_partial, C121_documented_partial, C121_help, C121_end, C121_unknown, C121_invalid, C121_one_dash).  Whole numbers are read as written (C121_int), except that leading zeros mean octal digits (C121_octal).
* **C122** Parameters of SelectModel can be used again: partial. False as stated (C122_refuted): the first call without root model writes an all-false one of its width into the parameters of the caller, and every later call with another number of columns panics (C122_other_columns).  C122_same_columns_partial: calls on data of one width; C122_given_root: a root model that was given; C122_nil: nil parameters.
* **C123** With many sweeps simulated annealing finds the best models: proved. C123_geometric, C123_tends; C123_uniform shows that independent uniform columns and multiples of 2^-53 meet the hypotheses.  The proof uses a sequence of draws that visits every model whatever the model before (universal_word), and independent blocks of draws in the first round.  With fewer than six rows the search finds one model only (C114_few_rows).
* **C124** Orthogonal matching pursuit finds sparse signals in noise: proved. C124_columns, C124_error; C124_random by Markov's inequality, with the outer measure of the set of failures.
* **C125** The lasso finds the features of a sparse signal: proved. C125_support, C125_error, C125_signs for every minimiser; C125_lars for the nodes and interpolations of a path, with the condition of C83_optimal_partial that no iteration is degenerate; C125_random by Chebyshev's inequality and the union bound.
* **C126** Random partitions are uniform and the sampled kappa is an unbiased, consistent estimate: proved. C126_orders, C126_split, C126_halves (counting), C126_unbiased, C126_consistent (Chebyshev), C126_partitions, C126_rows. rand.Shuffle is modelled as documented, with the code's swap function; GetSelection is a function of the indices; exact arithmetic.
* **C127** Along the lasso path the fit improves and the coefficients grow: proved. C127_monotone, C127_predictions for every minimiser; C127_path for runs of LassoLars in which no iteration is degenerate.
* **C128** Small changes of the response change the fits little, and the order of the columns does not matter: proved. C128_fit (truncated singular values included), C128_lasso, C128_order for every minimiser; C128_paths for runs of LassoLars in which no iteration is degenerate. Exact arithmetic.
* **C129** Reading a highscore list never panics, whatever the file holds: partial. False in general (C129_refuted): feature numbers out of range, a negative number of features, null entries, capacity 1 or a zero-value receiver make it panic, and a list longer than the capacity of the text stays longer (C129_capacity_refuted). Proved: exactly when it panics (C129_panics_iff, C129_zero_value), that it does not otherwise (C129_no_panic_partial), exactly when it returns an error and that the list is unchanged then (C129_errors), what is read (C129_reads), what counts as a number, an entry and the capacity (C129_int, C129_entry, C129_capacity), and that files of the program are read (C129_own_files).
* **C130** Fits of noisy data are unbiased and have the smallest variance: proved. Gauss-Markov theorem for the modelled Fit (svd with truncation at 1e-6 as parameter with its contract), exact real arithmetic.
* **C131** With many rows no feature of the signal is missed, and Bic selects the right model: proved. Proofs by Chebyshev's inequality for the linear part of the noise and Markov's for the part taken up by a model; C131_silent bounds the probability that the noise is too quiet; examples with fair coins and alternating columns.
* **C132** Accesses of the goroutines of SelectModel to shared memory: partial. Freedom from data races is false (C132_refuted: a child worker reads the highscore list while the main loop inserts a node, with three features and an empty list). C132_score_refuted: a child worker reads the score of an inserted node, unordered with its write. C132_only_line_252_partial: these are the only kinds of races in all runs: line 252 against the insertion in line 125, or against the write of the score in line 225. C132_return: when SelectModel returns, all accesses happen before the return, and no step of any goroutine is possible. C132_runs: the runs with accesses are exactly those of the transition system of C14 to C19. Happens-before is the transitive closure of the order of the events of each goroutine, where a send on an unbuffered channel and its receive are one event of both.
* **C133** A highscore list copes with NaN scores: partial. False as stated (C133_refuted): after MaxItems NaNs every number is lost, and a single NaN suffices that a larger number is dropped while a smaller one is kept. Proved: the numbers in the list are in descending order (C133_sorted), equal scores in the order of insertion (C133_stable); no panic and the length (C133_total, C133_len); if the first node inserted is NaN, BestScore() is NaN for ever (C133_nan_first), otherwise it is the largest number inserted (C133_number_first_partial); the first number of the list is the largest one inserted if one of the first MaxItems nodes has a number (C133_best_number_partial), else the list never changes again (C133_stuck); with k NaNs the largest MaxItems-1-k numbers are kept (C133_missing_partial).
* **C134** Missing values do not hide the best of the other models: partial. False as stated (C134_refuted: if the first column has missing values, the first node inserted is NaN, BestScore() stays NaN, and a list of capacity 2 can end without any number). Proved: if there is a number in the list, its first number is the best one (C134_first_number_partial), and BestScore() is if it is a number (C134_best_score_partial); if BestScore() is NaN no model was pruned, all were inserted (C134_nan_means_all). With a NaN or infinite value in the response all models with fewer features than rows are inserted (2^columns - 1 if there are more rows than columns) and all scores are NaN or minus infinity (C134_response). C134_finite, C134_finite_bounds and C134_finite_search: for finite responses the criterion, the bounds and the whole search are those of C12. What gonum makes of a matrix with NaN is not modelled: models with such a column have any criterion in the theorems.
* **C135** Constant columns are recognised in floating point arithmetic: partial. False as stated (C135_refuted): three rows with 1000000.2 have a computed standard deviation above 1e-10, are not refused and become three equal numbers between 1/2 and 1; the same for the response (C135_response_refuted). C135_accepted: every constant column that is not refused becomes a column of equal numbers. Proved: mean and standard deviation are exact if the constant has few binary digits (C135_exact: m*2^q with rows*|m| <= 2^53, e.g. whole numbers), the standard deviation is below 1e-10 for all constants up to 2^16/(rows+1) (C135_small); such columns are refused (C135_refused_partial), ones in the first column are always the constant term (C135_ones). C135_panic: exactly when the panic occurs. C135_no_rounding: without rounding the model is that of C48.
* **C136** Rounding errors of predictions and criteria: proved. Rounding is any function with the given relative error; binary64 outside the subnormal range is one (rnd53_rel, rnd53_eq). The errors of Fit (singular value decomposition) enter as the hypothesis on the computed coefficients.
* **C137** Tables of numbers with six decimals survive reading and saving: proved. C137_contract: float64 (binary64 with subnormal numbers, strconv's rounding to nearest even, overflow as an error) meets the contract that C44, C103 and C112 assume of a number format. C137_nearest, C137_accuracy and C137_too_large: conversion of decimal numbers; C137_nearest also says that it is the rounding rnd64 of C111, C135 and C136. C137_text and C137_file: text that is read and saved; C137_last: 8589934592.000001, just above 2^33, is saved as 8589934592.000002. C137_large, C137_number_iff and C137_data: values that are saved and read. Hexadecimal numbers are not modelled.
* **C138** Numbers in JSON files are exact and as short as possible: proved. Spec.Shortest is what strconv documents for the shortest digits: read back exactly, no fewer digits possible, none with no more digits closer. C138_exists: such digits exist for float64, so C45, C46, C94, C99 and C129 (which assume digits that are read back) hold for it. C138_seventeen, C138_fifteen and C138_sum: numbers of digits; C138_text: literals; C138_dataset and C138_node: files. How strconv finds the digits is not modelled.
* **C139** Normalised data are accurate up to rounding errors: proved. Spec.NormalizedUpTo: size, mean and error of each number, against the exact mean and standard deviation. C139_mean, C139_std: Mean and Std; C139_normalized: one list; C139_dataset: NewNormalizedData for any rounding with relative error u; C139_binary64: 53 binary digits, without underflow and overflow. The dependence on the mean divided by the standard deviation is not avoidable: subtracting a rounded mean cancels leading digits.
* **C140** Lasso by coordinate descent works in floating point: proved. every operation is rounded with relative error u; C140_objective and C140_selected hold for any stored covariance matrix close to the exact one, C140_normalised for data of unit scale, C140_binary64 from raw data; overflow and underflow are not modelled, nor the fused multiply-add of other platforms than amd64
* **C141** A gap in one feature does not hide the others from coordinate descent: partial. refuted for the empirical covariance matrix (C141_refuted; C141_feature shows that one gap always empties the selection, whatever the response, penalty, correction and number of iterations; C141_response the same for a gap in the response and any covariance matrix); C141_identity_partial proves the claim for the identity covariance matrix and the plain lasso, C141_finite that complete data give the algorithm for numbers. Assumed of gonum: inner products are exact for numbers and NaN when NaN meets a factor other than 0
* **C142** Simulated annealing passes over features with missing values: partial. refuted: with two columns, a gap in the second and columns drawn in turn the search goes on forever, since exactly half of the proposals is accepted (C142_endless, C142_refuted); with no column without gaps it never returns (C142_no_column). C142_passes_partial proves the rest: whatever is returned or listed is a model of columns without gaps, with its own coefficients and score; C142_ends shows a search that ends. Assumed of gonum: the product of a row with NaN or an infinite value and a vector is not a number (GapSpreads)
* **C143** Missing values in a feature column are noticed by the lasso command: proved. C143_no_node: with a gap in a feature the joining times of the first iteration panic, whatever the estimator returns; C143_noticed: the command panics or fails to write; C143_complete ties the model to the path for numbers (first iteration). Finite numbers are exact; assumed of gonum: an inner product with NaN against a value that is not 0 is NaN (GonumDot)
* **C144** With random draws simulated annealing ends despite missing values: proved. C144_almost_surely; C144_lucky is the same for given draws in which every word of columns occurs again and again together with small numbers. Data, gonum's part and the cost are as in GapData: no panic on gaps, the product of a row with a gap is not a number. Drawn in turn the columns need not lead to an end (C142_endless). The temperature is exact and has no upper limit
* **C145** The reported number of pruned models is accurate in floating point: partial. C145_accurate_partial (at most 1023 columns), C145_billion (binary64: less than 1/1000 off after a billion pruned branches), C145_monotone (any number of columns). C145_refuted: with 1024 columns a search reports plus infinity after one pruned branch, since 2^1024 overflows; C145_overflow: whenever the first pruned branch lies 1024 or more levels above the leaves, all further reports are plus infinity. Overflow and infinities as in IEEE 754; math.Pow and math.Log2 are parameters with an error bound; zeros have no sign
* **C146** Model weights are reliable in floating point: partial. C146_range_partial, C146_sum, C146_accurate for lists with at least one number and no NaN and no minus infinity. C146_refuted and C146_nan: one criterion of minus infinity (an exact fit) or NaN makes every weight NaN. Rounding, overflow and infinities as in IEEE 754, math.Exp is a parameter with an error bound; exp64_monotone and exp64_accurate: correctly rounded binary64
* **C147** Regularisation grids are accurate in floating point: proved. C147_accurate, C147_ordered, C147_binary64, C147_nan_first, C147_nan_all, C147_no_file. math.Log and math.Exp are parameters with error bounds (and monotone for the order); coordinate descent with the rules of IEEE 754 for NaN and infinities; of Path2Unnormalized only that it keeps Lamb is used
* **C148** Rounding never makes an unstable selection look perfectly stable: proved. C148_kappa, C148_mean, C148_chosen; C148_full: NaN when both selections consist of all features, as in C40. roundOff64: binary64 meets the contract, 1000 features and 1000 samples meet the size condition. Products of counters do not overflow
* **C149** With many rows the criterion of the commands selects the right model: partial. C149_consistent_partial: true when all features belong to the signal. Otherwise false (C149_refuted, C149_inconsistent): with normal noise and a column that is not a combination of those of the signal the probability stays below 199/200. C149_overfit: for 1000 or more rows (and at least 5(k+1)(k+2)+k+2 for k features of the signal) some model with superfluous features has a smaller Aicc with probability at least 1/200; C149_select: then no run of SelectModel has the right model first
* **C150** goselect-cohenlasso recommends a positive regularisation: partial. C150_positive_partial: true for positive ends. Otherwise false (C150_refuted): with an end that is not positive and numLamb at least 2 the last target has the regularisation NaN, which selects nothing and always gets the kappa 1, and the recommended target has a kappa that is not smaller (C150_kappa_nan, C150_best); with lambMin 0 or negative all kappas are 1 and every finished run recommends NaN (C150_all)
* **C151** Orthogonal matching pursuit passes over features with missing values: partial. C151_passes_partial: true if the first column is complete. Otherwise false (C151_refuted): with NaN in the first column Omp chooses that column only, and all other coefficients are 0 (C151_first), provided the fit of that column returns at all (C151_first_returns)
* **C152** No data races in the worker pools: partial. True of L2ConsistentCovTO (C152_cov) and, for different targets that do not share a CLasso, of CalculateCohenSequence (C152_cohen_distinct). C152_path_partial and C152_cohen_partial name the only places where races can be. C152_path_refuted: every run of LassoCrdDescPath with two or more regularisations has a race, because the first ten jobs are given the same slice as start vector and each of them writes it; also on the state of a CLasso correction and of a SparseThresholded covariance. C152_cohen_refuted: the same target passed twice among the first sixteen always races. The statements on the return hold (C152_path_return, C152_cohen_return)
* **C153** Lasso predictions are nearly as good as those of any coefficients: proved. C153_prediction for all competing coefficients, also for coefficients that only come near the smallest objective; C153_sparse under the compatibility condition, which C153_orthogonal gives for nearly orthogonal columns; C153_lars, C153_crd for the code; C153_random, C153_random_sparse for random noise, C153_noise: normal and bounded noise qualify. Exact arithmetic.
* **C154** The covariance lasso selects identical features together: partial. False: C154_refuted. Every minimiser of the elastic net gives identical features the same coefficient (C154_optimum), but LassoCrdDesc gives a copy (with either sign, possibly shrunk) of the feature before it the coefficient zero in every call with every correction (C154_copy, C154_never): the first sweep sets it to zero, and a feature at zero is never visited again. True: when convergence is reported, the coefficients of two selected features differ by at most the difference of their correlations with the residual divided by the weight, up to the tolerance (C154_group_partial, C154_group_cLasso_partial). The covariance lasso is the elastic net, whatever state an earlier call left it in, unless coefficients have a positive sum of squares below 1e-10 (C154_same; C154_tiny: the exception matters). Exact arithmetic.
* **C155** Copies of features leave the LARS path as it is: partial. False: C155_refuted. When a feature leaves the path, a copy of it joins at the same regularisation, because only the feature that has just left is kept from joining; that the coefficient of the copy has the wrong sign from there on is not noticed (the crossing is at the current regularisation), and later nodes do not minimise the lasso objective, although all nodes of the path without the copy do. True (C155_path_partial): as long as no feature of a node is missing in the next one, the path with the copies is the same and the only one. Exact arithmetic: the joining time of a copy of a selected feature has the form 0/0 there, which the code discards as not a number; with rounding it is the quotient of two rounding errors.
* **C156** Redundant features are not selected: partial. True for the criteria (C156_score), for the branch-and-bound search (C156_select: complete runs without overflow, from the empty model) and for the exhaustive search (C156_brute). False for Omp: C156_refuted; when the selected features fit as well as all features but the tolerance is not reached, all correlations are zero and the first column wins the tie. C156_omp_partial: this is the only case, the superfluous feature is feature 0, and it is the last one selected. Exact arithmetic.
* **C157** Orthogonal matching pursuit is nearly as good as the best subset: proved. C157_error: the factor; C157_size and C157_log: the number of features; C157_coherence: nearly orthogonal columns meet the condition. No assumption on the target. Exact arithmetic, exact fits of the selected features.
* **C158** What a number of iterations of coordinate descent guarantees: proved. C158_rate; C158_iterations: the number of iterations for a given accuracy; C158_all_selected: all vectors (whose first entry is 0) if all features are selected; C158_normalised: normalised data; C158_linear and C158_coefficients: independent columns. Empirical covariance, exact arithmetic; the penalty is positive except in the last two.
* **C159** What the progress of a running search tells about the best model: proved. C159_report, C159_list for any search with valid bounds; C159_regression for data sets.
* **C160** The lasso uses few features and does not miss the strong ones: proved. C160_size, C160_few, C160_strong, C160_rows for every minimiser; C160_random for random noise; C160_lars, C160_lars_rows for runs of LassoLars in which no iteration is degenerate. Exact arithmetic.
* **C161** How many samples the choice of a regularisation by agreement needs: proved. C161_exponential, C161_choice, C161_samples; the random numbers of every target are fair and independent, the numbers of rows and columns are the same for all targets, and the kappas are exact.
* **C162** How many partitions the choice of the threshold needs: proved. C162_errors (bound of the errors), C162_choice, C162_samples; exact arithmetic, fair and independent random numbers. The choice is among the thresholds of the grid that the code searches (see C81).
* **C163** How long LARS paths can be: proved. C163_length (every estimator), C163_combinations, C163_selection (non-degenerate runs, the condition of C83, which is part of the statement), C163_attained (two features); exact arithmetic.
* **C164** Thresholding finds sparse covariance matrices: proved. C164_recovers, C164_quadratic, C164_definite, C164_frobenius, C164_probability, C164_samples; exact arithmetic, rows drawn independently and with replacement. Complements C76, where positive semidefiniteness is refuted in general.
* **C165** How accurate converged elastic nets are: proved. C165_elastic, C165_cLasso, C165_unique; exact arithmetic, empirical covariances. Complements C75 and C154; that unselected features may be wrongly unselected is C55 and C154.
* **C166** Elastic nets change little with the target values: proved. C166_best, C166_runs; exact arithmetic, empirical covariances.
* **C167** Cohen's kappa measures the agreement beyond chance: proved. C167_monotone, C167_chance, C167_tail; exact arithmetic. Random selections are counted: sums over all subsets of the given size.
* **C168** Fits of nearly singular data are nearly optimal: proved. C168_exact, C168_near, C168_nested; exact arithmetic. The sums of norms are stated by their squares, (p + q)^2 being the least value of (1 + t) p^2 + (1 + 1/t) q^2 over t > 0. Complements C04 and C05, whose exact forms need that no singular value is discarded.
* **C169** SelectModel on nearly singular data is nearly optimal: proved. C169_search; exact arithmetic, empty cutoff map, MaxItems at least 2. The size of the criterion includes 2 n log(1 + tau). Complements C12, which needs that no singular value is discarded, and C111, which assumes a bound on the errors; here it follows from C168.
* **C170** The order of the rows and the decomposition found do not matter: proved. C170_fit, C170_search, C170_annealing, C170_omp, C170_lars, C170_crd for data with the same sums; C170_rows: another order of the rows gives such data. Exact arithmetic, at least one row. For the lasso the entries beyond the last column are taken to be 0.
* **C171** The order and signs of the features do not matter, also when singular values are discarded: proved. C171_fit for every nonempty model and C171_ranking for BruteForceSelect (every model's residual sum of squares positive). Exact arithmetic; units of columns other than 1 and -1 are C107, which needs fits that discard nothing.
* **C172** Small changes of the response do not change a clear choice of the model: proved. C172_rss, C172_scores, C172_best, C172_search. Exact arithmetic; the leads are those of the list of BruteForceSelect for the first response.
* **C173** Stricter criteria choose smaller models: proved. C173_bic, C173_aicc and C173_bic_aicc for any set of candidates, C173_brute for BruteForceSelect, C173_select for SelectModel and C173_path for GetCriteria. Real arithmetic; no candidate fits exactly (there the criteria are minus infinity).
* **C174** Orthogonal matching pursuit does not depend on the order and signs of the features: proved. C174_omp: the run on the reordered data returns, with the same features in the same sequence. Exact arithmetic. With ties the first of the tied features is taken, so that the order of the columns matters.
* **C175** Averages of models are stable: proved. C175_truncate (models left out), C175_change (criteria changed). Exact arithmetic; the kept models come first in the list.
* **C176** Repeated rows lead to larger models: proved. C176_fit, C176_aic, C176_bic, C176_aicc, C176_brute, C176_select. Exact arithmetic; the fits of the original data are not truncated (singular values 0 or above 1e-6), which then also holds for the repeated data; no model fits exactly.
* **C177** Columns that the best model does not use can be left out: proved. C177_fit, C177_brute, C177_select. Exact arithmetic. The columns kept are in their original order; for other orders see C171.
* **C178** Columns that the lasso does not use can be left out: proved. C178_restrict for every minimiser; C178_path for runs of LassoLars in which no iteration is degenerate. Exact arithmetic.
* **C179** Columns that orthogonal matching pursuit does not choose can be left out: proved. C179_omp. Exact arithmetic. The columns kept are in their original order; for other orders see C174.
* **C180** Repeated rows do not change orthogonal matching pursuit: proved. C180_omp. Exact arithmetic. For other orders of the repeated rows see C174.
* **C181** Repeated rows only rescale the lasso: proved. C181_objective, C181_solutions for all data; C181_path for runs of LassoLars in which no iteration is degenerate. Exact arithmetic. The iterates of LassoCrdDesc itself are not compared: its check of the optimality conditions is not divided by the number of rows.
* **C182** A smaller tolerance continues orthogonal matching pursuit: proved. C182_prefix, C182_same for all data, also with zero columns; C182_error for fits that are not truncated. Exact arithmetic.
* **C183** A smaller lambMin continues the LARS path: proved. C183_larger, C183_prefix for every estimator, also for degenerate runs. Exact arithmetic.
<!-- end -->
