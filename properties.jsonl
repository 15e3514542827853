{"id": "C01", "title": "Gcs/Lcs are the extreme models of a subtree", "statement": "For a model and a position start <= len(model), Gcs keeps the first start flags and contains every model that shares them, Lcs keeps them and is contained in every such model, and NumFeatures of any such model lies between NumFeatures(Lcs) and NumFeatures(Gcs). start > len(model) panics.", "quantifier": "all boolean models of any length, all start positions, all models sharing the prefix", "why_tests_cant": "the set of models sharing a prefix is exponential in the number of features; tests list four cases", "anchors": ["featselect/optimize.go:Gcs", "featselect/optimize.go:Lcs", "featselect/optimize.go:NumFeatures"]}
{"id": "C02", "title": "AIC/AICc/BIC grow with the number of features and with the RSS", "statement": "For a fixed number of data points, Aic, Aicc and Bic never decrease when features are added or when a positive residual sum of squares grows, including across the numFeat >= numData-1 switch of the AICc correction; AICc >= AIC.", "quantifier": "all feature counts, all data counts >= 1, all positive RSS values", "why_tests_cant": "monotonicity is a statement about all pairs of inputs, and the correction term changes formula at a boundary", "anchors": ["featselect/criteria.go:Aic", "featselect/criteria.go:Aicc", "featselect/criteria.go:Bic"]}
{"id": "C03", "title": "BoundsAIC/BoundsAICC bracket every sub-model", "statement": "The (lower, upper) pair returned for (model, start) satisfies lower <= criterion(m) <= upper for every model m with at least one feature and fewer features than data points that agrees with model on the first start flags, provided fits are exact least-squares fits with positive RSS and, if a model of the subtree has as many features as data points, the RSS of m is at least RssTol.", "quantifier": "all data sets, all models and prefixes, all models of the subtree", "why_tests_cant": "a subtree has exponentially many members and the data are real matrices", "anchors": ["featselect/criteria.go:bounds", "featselect/criteria.go:BoundsAIC", "featselect/criteria.go:BoundsAICC"]}
{"id": "C04", "title": "Fit returns a least-squares minimiser", "statement": "If all singular values of the design matrix exceed 1e-6, the coefficients returned by Fit give a residual sum of squares no larger than that of any other coefficient vector, and Fit panics exactly when the number of rows differs from len(y).", "quantifier": "all design matrices, all targets, all competing coefficient vectors", "why_tests_cant": "a test compares against one known solution; optimality is against every vector", "anchors": ["featselect/fit.go:Fit", "featselect/fit.go:Rss", "featselect/fit.go:Predict"]}
{"id": "C05", "title": "Adding features never increases the least-squares RSS", "statement": "For exact least-squares fits, a model that contains another model with at least one feature has an RSS that is not larger; singular-value truncation at 1e-6 in Fit can break this.", "quantifier": "all data sets, all pairs of nested models", "why_tests_cant": "quantifies over all nested pairs and all data", "anchors": ["featselect/fit.go:Fit", "featselect/fit.go:Rss", "featselect/criteria.go:bounds"]}
{"id": "C06", "title": "BruteForceSelect visits every non-empty model exactly once", "statement": "For a design matrix with n columns BruteForceSelect terminates and its highscore list contains every one of the 2^n - 1 non-empty models exactly once, each with Score = -AICc of its own fit.", "quantifier": "all n, all data sets", "why_tests_cant": "tests try n = 2 and n = 3", "anchors": ["featselect/optimize.go:BruteForceSelect", "featselect/node.go:GetChildNode", "featselect/optimize.go:isNewNode"]}
{"id": "C07", "title": "BruteForceSelect ranks by AICc", "statement": "The list returned by BruteForceSelect is sorted by non-increasing Score, and BestScore is the largest -AICc over all non-empty models.", "quantifier": "all n, all data sets", "why_tests_cant": "needs the maximum over exponentially many models", "anchors": ["featselect/optimize.go:BruteForceSelect", "featselect/highscore.go:Insert"]}
{"id": "C08", "title": "A highscore list is always sorted", "statement": "After any sequence of Insert calls on a NewHighscore list, Scores() is non-increasing and equal scores stay in insertion order.", "quantifier": "all capacities, all insertion sequences (non-NaN scores)", "why_tests_cant": "histories are unbounded", "anchors": ["featselect/highscore.go:Insert", "featselect/highscore.go:Scores"]}
{"id": "C09", "title": "A highscore list keeps the top scores", "statement": "After any insertion sequence Scores() is exactly the largest Len() scores ever inserted, the nodes appear in the order of the stable descending sort of everything inserted, no dropped node beats a kept one, and if anything was dropped the list still holds at least MaxItems-1 nodes.", "quantifier": "all capacities >= 2, all insertion sequences", "why_tests_cant": "histories are unbounded", "anchors": ["featselect/highscore.go:Insert", "featselect/highscore.go:NewHighscore"]}
{"id": "C10", "title": "Highscore capacity and panics", "statement": "Len never exceeds MaxItems; if all inserted scores differ it is exactly the minimum of MaxItems-1 and the number of insertions; Insert never shrinks the list; the only capacity for which an insertion panics is 1, and a list with MaxItems <= 0 stays empty.", "quantifier": "all capacities, all insertion sequences", "why_tests_cant": "boundary behaviour depends on ties in arbitrary histories", "anchors": ["featselect/highscore.go:Insert", "featselect/highscore.go:Len"]}
{"id": "C11", "title": "BestScore is the maximum ever inserted", "statement": "For MaxItems >= 2 and a non-empty history BestScore() equals the maximum of all inserted scores and never decreases; for an empty list it is 0. A NaN inserted first breaks this.", "quantifier": "all capacities >= 2, all insertion histories", "why_tests_cant": "histories are unbounded", "anchors": ["featselect/highscore.go:BestScore", "featselect/highscore.go:Insert"]}
{"id": "C12", "title": "SelectModel finds the best model under every schedule", "statement": "Let MaxItems be at least 2. Whenever SelectModel returns without having printed the queue-overflow message and without an interleaved first insertion between BestScore() and Len() in CreateChild, BestScore of the highscore list is at least the score of every model other than the root model that has at least one feature and fewer features than rows, and it is the score of a model that was fitted (or was in the list before), provided node bounds are valid.", "quantifier": "all data sets, all root models (all-false, or fewer columns than rows), all goroutine schedules", "why_tests_cant": "schedules of 17 goroutines cannot be enumerated by tests, nor can data sets", "anchors": ["featselect/optimize.go:SelectModel", "featselect/optimize.go:CreateChild", "featselect/optimize.go:CreateChildNodes", "featselect/optimize.go:ScoreWorker", "featselect/optimize.go:CleanQueue"]}
{"id": "C13", "title": "SelectModel reports each model at most once with its own score", "statement": "In every reachable state of a SelectModel run with a highscore list with MaxItems other than 1 the nodes inserted into the highscore list have pairwise different models, each of length ncols, each with Score = -AICc of that model's fit (or -MaxFloat64 for the empty model) and Coeff from that fit; at most 2^ncols - 1 models are ever inserted.", "quantifier": "all data sets, all root models, all schedules, all reachable states", "why_tests_cant": "schedules and histories are unbounded", "anchors": ["featselect/optimize.go:SelectModel", "featselect/optimize.go:ScoreWorker", "featselect/optimize.go:isNewNode"]}
{"id": "C14", "title": "SelectModel never deadlocks", "statement": "In every reachable state in which SelectModel has not returned and did not panic (with MaxItems other than 1 it never does), some goroutine can take a step that is not the idle nil-polling loop or leads to one that can.", "quantifier": "all schedules, all reachable states", "why_tests_cant": "a deadlock needs a specific interleaving", "anchors": ["featselect/optimize.go:SelectModel", "featselect/optimize.go:CreateChildNodes", "featselect/optimize.go:ScoreWorker"]}
{"id": "C15", "title": "SelectModel terminates under fair scheduling", "statement": "For a highscore list with MaxItems other than 1 there is a bound, fixed by the number of columns, on the number of steps other than idle nil-polling that any run of SelectModel can take, and in every unfinished reachable state a step that is not idle polling is enabled.", "quantifier": "all schedules, all inputs", "why_tests_cant": "termination is about infinite schedules", "anchors": ["featselect/optimize.go:SelectModel", "featselect/optimize.go:CreateChildNodes"]}
{"id": "C16", "title": "SelectModel exits exactly when all work is done and never sends on a closed channel", "statement": "When SelectModel (with MaxItems other than 1) leaves its loop and closes its channels, no node is queued, none is being scored, no child is being created, so no goroutine will send on a closed channel; exactly one child worker stays blocked on its ready channel for ever.", "quantifier": "all schedules", "why_tests_cant": "an early exit or a send on a closed channel needs a specific interleaving", "anchors": ["featselect/optimize.go:SelectModel", "featselect/optimize.go:CreateChildNodes"]}
{"id": "C17", "title": "The root model passed to SelectModel is itself considered", "statement": "SelectModel with params.RootModel set reports a highscore list whose best score is at least the score of RootModel.", "quantifier": "all data sets, all root models, all schedules", "why_tests_cant": "the existing tests only use the nil root; the claim is about every root and every run", "anchors": ["featselect/optimize.go:SelectModel", "featselect/optimize.go:isNewNode", "cmd/bnb.go:findOptimalSolution"]}
{"id": "C18", "title": "Cutoff changes which nodes are pruned", "statement": "A node is pruned exactly when lower_bound + cutoff exceeds the current best AICc (as the documentation of SelectModel says).", "quantifier": "all cutoffs, all nodes, all highscore lists", "why_tests_cant": "the documentation quantifies over all cutoffs; no test uses one", "anchors": ["featselect/optimize.go:CreateChild", "featselect/optimize.go:SelectModel"]}
{"id": "C19", "title": "Queue eviction is safe", "statement": "RemoveLeastPromising never empties a non-empty queue, removes only nodes whose lower bound exceeds the mean, keeps the order of the rest, and brings the queue below MaxQueueSize.", "quantifier": "all queues of any length, all bounds", "why_tests_cant": "the mean depends on arbitrary queue content", "anchors": ["featselect/optimize.go:RemoveLeastPromising", "featselect/optimize.go:CleanQueue"]}
{"id": "C20", "title": "Search progress is monotone and exact", "statement": "Along every run of SelectModel with MaxItems other than 1 NumExplored never decreases, always equals the number of nodes inserted before the last received score, and Log2NumPruned never decreases.", "quantifier": "all schedules, all prefixes of a run", "why_tests_cant": "a statement about every prefix of every interleaving", "anchors": ["featselect/optimize.go:SelectModel", "featselect/searchProgress.go:Set", "featselect/searchProgress.go:Get"]}
{"id": "C21", "title": "SearchProgress.Get returns a consistent snapshot", "statement": "Whatever the interleaving of any number of concurrent Set and Get calls, the triple returned by Get is the initial triple or the triple of one single completed Set call, namely the last one whose critical section preceded.", "quantifier": "all numbers of goroutines, all interleavings of their individual field accesses", "why_tests_cant": "torn reads need a specific interleaving", "anchors": ["featselect/searchProgress.go:Set", "featselect/searchProgress.go:Get"]}
{"id": "C22", "title": "NewLog2Pruned adds counts in the log domain", "statement": "2^NewLog2Pruned(c, n) = 2^c + 2^n, so folding it over any sequence of prunes gives log2 of the sum, in any order.", "quantifier": "all reals c, all integers n, all sequences", "why_tests_cant": "an algebraic identity over the reals", "anchors": ["featselect/util.go:NewLog2Pruned"]}
{"id": "C23", "title": "The SA highscore list has no duplicates and respects its capacity", "statement": "After any sequence of inserts of fresh items no two entries have the same Selection, the length is at most max(Cap,1), and it never decreases.", "quantifier": "all capacities, all insertion histories", "why_tests_cant": "histories are unbounded", "anchors": ["featselect/saScore.go:Insert", "featselect/saScore.go:Exists"]}
{"id": "C24", "title": "BestItem and WorstItem of the SA list are right", "statement": "After any non-empty insertion history of fresh items WorstItem is in Items and has the smallest Score in Items, and BestItem has the largest Score of all accepted items, which some entry of Items also has.", "quantifier": "all capacities, all insertion histories", "why_tests_cant": "in-place overwriting makes aliasing errors history dependent", "anchors": ["featselect/saScore.go:Insert"]}
{"id": "C25", "title": "The SA list keeps the best models", "statement": "If equal selections always come with equal scores, every inserted item whose selection is not in the list has a score no larger than every score in the list, and the list is full in that case.", "quantifier": "all capacities >= 1, all insertion histories", "why_tests_cant": "histories are unbounded", "anchors": ["featselect/saScore.go:Insert"]}
{"id": "C26", "title": "Coeff of an SA list entry belongs to its Selection", "statement": "Every entry of the SA highscore list carries the Coeff of the item whose Selection and Score it shows.", "quantifier": "all capacities, all insertion histories", "why_tests_cant": "needs a history longer than the capacity", "anchors": ["featselect/saScore.go:Insert", "cmd/sasearch.go:saSearch"]}
{"id": "C27", "title": "The simulated-annealing walk stays in the legal region", "statement": "On data with at least one column and as many responses as rows, for which no cost exceeds MaxFloat64, and whatever the random numbers, the current model of SelectModelSA always has at least one feature and, if there are at least 4 rows, always fewer than nrows/2 features; GetDesignMatrix is never called with an empty model.", "quantifier": "all random streams, all deterministic cost functions, all prefixes of the run", "why_tests_cant": "the random stream is infinite", "anchors": ["featselect/simmulatedAnnealing.go:SelectModelSA"]}
{"id": "C28", "title": "SelectModelSA returns matching Selected and Coeff", "statement": "If SelectModelSA returns on data with at least one column and as many responses as rows, for which no cost exceeds MaxFloat64, Selected is strictly increasing and non-empty, len(Coeff) = len(Selected) and Coeff is the fit of exactly the selected columns.", "quantifier": "all random streams, all data sets", "why_tests_cant": "a rejected flip must be undone on every path through the loop", "anchors": ["featselect/simmulatedAnnealing.go:SelectModelSA"]}
{"id": "C29", "title": "The SA result records the best accepted model", "statement": "If no cost exceeds MaxFloat64 (and the data have a column and as many responses as rows), Scores.BestItem of the result of SelectModelSA has the smallest cost of all models accepted during the run and Selected is that model.", "quantifier": "all random streams", "why_tests_cant": "the random stream is infinite", "anchors": ["featselect/simmulatedAnnealing.go:SelectModelSA", "featselect/saScore.go:Insert"]}
{"id": "C30", "title": "The bit array Model behaves like an array of booleans", "statement": "For all sequences of Set and Flip at indices below the size, Get and ToBools return what an array of size booleans would hold; other positions are unaffected; Flip twice is the identity.", "quantifier": "all sizes, all operation sequences, all indices", "why_tests_cant": "operation sequences are unbounded", "anchors": ["featselect/model.go:NewModel", "featselect/model.go:Get", "featselect/model.go:Set", "featselect/model.go:Flip", "featselect/model.go:ToBools"]}
{"id": "C31", "title": "Selections and models are inverse representations", "statement": "SelectedFeatures is strictly increasing, lists exactly the true positions, has NumFeatures entries; Selected2Model inverts it; Selected2Model panics exactly on an index out of range; NewSAItem, ToSparseCoeff and MarshalJSON use the same selection.", "quantifier": "all models, all selections", "why_tests_cant": "round trips over all models", "anchors": ["featselect/orthogonalMatchingPursuit.go:SelectedFeatures", "featselect/util.go:Selected2Model", "featselect/saScore.go:NewSAItem", "featselect/node.go:ToSparseCoeff"]}
{"id": "C32", "title": "The design matrix contains exactly the selected columns in order", "statement": "For a model with at least one feature that is no longer than X has columns, column k of GetDesignMatrix(model, X) is the column of X at the k-th selected feature; Predict of the design matrix with coeff equals Predict of X with FullCoeffVector; an empty model panics.", "quantifier": "all matrices, models and coefficients", "why_tests_cant": "an identity over all matrices", "anchors": ["featselect/util.go:GetDesignMatrix", "featselect/util.go:FullCoeffVector", "featselect/fit.go:Predict"]}
{"id": "C33", "title": "IterProduct returns the Cartesian power", "statement": "IterProduct(values, r) returns all len(values)^r tuples in lexicographic order.", "quantifier": "all value slices, all r", "why_tests_cant": "slice aliasing depends on capacities that grow with r; tests stop at r = 3", "anchors": ["featselect/util.go:IterProduct"]}
{"id": "C34", "title": "The lazy power matrix lists each monomial once", "statement": "NewLazyMatrix(X, p) has the columns of X followed by one column for each exponent vector of total degree 2..p, each equal to the product of the powers; the exponent vectors are pairwise different.", "quantifier": "all matrices, all maximal powers", "why_tests_cant": "the number of monomials grows combinatorially", "anchors": ["featselect/lazyPowerMat.go:NewLazyMatrix", "featselect/lazyPowerMat.go:AddPowerSequence", "featselect/lazyPowerMat.go:GetCol", "featselect/lazyPowerMat.go:FullMatrix"]}
{"id": "C35", "title": "RearrangeDense permutes columns", "statement": "If colOrder has no repeated column, only columns that exist, and all its -1 entries come last, the columns of the result are a permutation of the columns of X that starts with the requested ones; no column is lost.", "quantifier": "all matrices, all column orders", "why_tests_cant": "quantifies over all permutations", "anchors": ["featselect/util.go:RearrangeDense"]}
{"id": "C36", "title": "Argsort, Argmin and Argmax return right indices", "statement": "Argsort returns a permutation of the indices along which the values are non-decreasing; Argmin/Argmax return the first index of the minimum/maximum and panic on an empty slice.", "quantifier": "all slices (non-NaN), every sorting algorithm sort.Sort may use", "why_tests_cant": "all inputs", "anchors": ["featselect/util.go:Argsort", "featselect/util.go:Argmin", "featselect/orthogonalMatchingPursuit.go:Argmax"]}
{"id": "C37", "title": "AIC weights are a probability distribution", "statement": "WeightsFromAIC of a non-empty slice returns positive weights that sum to 1, are non-increasing in the AIC value and do not change when a constant is added to all AIC values; the argument is shifted so that its minimum is 0 (no value exceeding MaxFloat64).", "quantifier": "all AIC vectors", "why_tests_cant": "identities over the reals", "anchors": ["featselect/util.go:WeightsFromAIC", "featselect/util.go:MinFloat"]}
{"id": "C38", "title": "Logspace is a geometric progression from min to max", "statement": "For 0 < min, 0 < max and num >= 2 Logspace returns num positive values, the first is min, the last is max, consecutive ratios are constant; it is increasing iff min < max.", "quantifier": "all positive ranges, all counts", "why_tests_cant": "all inputs", "anchors": ["featselect/util.go:Logspace"]}
{"id": "C39", "title": "UnionInt is a set union that keeps order", "statement": "UnionInt(s1,s2) starts with s1, contains exactly the members of both, and adds no duplicates.", "quantifier": "all slices", "why_tests_cant": "all inputs", "anchors": ["featselect/util.go:UnionInt", "featselect/util.go:ExistInt"]}
{"id": "C40", "title": "Cohen's kappa is symmetric, at most 1, and 1 for identical selections", "statement": "For duplicate-free selections within range CohenKappa is symmetric, lies in [-1,1], and is 1 exactly when both selections contain the same features.", "quantifier": "all selections, all totals", "why_tests_cant": "all inputs; the existing test for full selections passes on NaN", "anchors": ["featselect/util.go:CohenKappa"]}
{"id": "C41", "title": "CalculateCohenSequence evaluates every target once and returns the best", "statement": "Under every schedule of the 16 workers every target is evaluated exactly once, the call does not deadlock, it returns after len(targets) results, and the returned hyper parameters belong to a target with the largest kappa if that is positive and are nil otherwise.", "quantifier": "all target lists, all schedules", "why_tests_cant": "schedules of 17 goroutines", "anchors": ["featselect/cohens_kappa.go:CalculateCohenSequence", "featselect/cohens_kappa.go:CohensKappaWorker"]}
{"id": "C42", "title": "Feature names and numbers are inverse", "statement": "For a data set with distinct names, one more than features, and any target column, FeatNoByName(GetFeatName(i)) = i for every feature i, GetFeatName is injective and never returns the target name; unknown names panic.", "quantifier": "all data sets, all target columns", "why_tests_cant": "all target positions and widths", "anchors": ["featselect/csvIO.go:GetFeatName", "featselect/csvIO.go:FeatNoByName"]}
{"id": "C43", "title": "GetSubset keeps columns, names and target", "statement": "For a well-formed data set with distinct names and a row, and a non-empty list of existing features, feature k of GetSubset(features) has the name and the column of feature features[k], the target name and Y are kept, the target is the last column, and taking a subset of a subset is taking the composed subset.", "quantifier": "all data sets, all feature lists", "why_tests_cant": "all inputs", "anchors": ["featselect/csvIO.go:GetSubset", "featselect/csvIO.go:GetFeatName"]}
{"id": "C44", "title": "CSV files round-trip", "statement": "Writing a well-formed data set with at least one row and one feature with SaveHandle and parsing it with ParseCSV using its target column gives back, if no name contains the line break \\r\\n, the names, the target column and every value rounded to six decimals (so within a millionth of what was written, with its sign); writing again gives the same text; negative target columns count from the end; out-of-range target columns panic.", "quantifier": "all data sets, all target columns, all values", "why_tests_cant": "all widths, target positions and decimal expansions", "anchors": ["featselect/csvIO.go:ParseCSV", "featselect/csvIO.go:SaveHandle"]}
{"id": "C45", "title": "Dataset JSON round-trips", "statement": "UnmarshalJSON(MarshalJSON(d)) has the same matrix, targets, names and target column for every data set with finite numbers, at least one row and at least one column.", "quantifier": "all data sets", "why_tests_cant": "all shapes", "anchors": ["featselect/csvIO.go:MarshalJSON", "featselect/csvIO.go:UnmarshalJSON"]}
{"id": "C46", "title": "Node and Highscore JSON round-trip", "statement": "Unmarshalling the JSON form of a node restores everything but WasFlipped; unmarshalling the JSON form of a list built by inserts into an empty list restores the same nodes in the same order, including lists that are full.", "quantifier": "all nodes, all insertion histories, all capacities", "why_tests_cant": "the capacity rule of Insert is applied again while decoding", "anchors": ["featselect/node.go:MarshalJSON", "featselect/node.go:UnmarshalJSON", "featselect/highscore.go:MarshalJSON", "featselect/highscore.go:UnmarshalJSON"]}
{"id": "C47", "title": "Equality tests are reflexive, symmetric and sound", "statement": "NodesEqual, Highscore.Equal and Dataset.IsEqual are reflexive (if no number is NaN) and symmetric, never panic on well-formed arguments, and accept only arguments that agree on all discrete fields and within 1e-10 on all numbers (absolute, or relative for coefficients and data values).", "quantifier": "all pairs of arguments", "why_tests_cant": "all pairs", "anchors": ["featselect/node.go:NodesEqual", "featselect/highscore.go:Equal", "featselect/csvIO.go:IsEqual"]}
{"id": "C48", "title": "Normalisation gives zero mean and unit variance", "statement": "After NewNormalizedData / NormalizeArray / NormalizeCols every non-constant column and y have mean 0 and standard deviation 1; a constant first column becomes 0 and sets HasBias; a constant later column panics; normalising twice changes nothing. (NewNormalizedData counts a column with standard deviation below 1e-10 as constant.)", "quantifier": "all matrices with at least two rows", "why_tests_cant": "identities over the reals", "anchors": ["featselect/normalized_dataset.go:NewNormalizedData", "featselect/util.go:NormalizeArray", "featselect/util.go:Std", "featselect/util.go:Mean"]}
{"id": "C49", "title": "Un-normalised coefficients predict what the normalised ones predict", "statement": "After Path2Unnormalized, for every row the prediction with the un-normalised coefficients on the original columns equals muY + stdY times the normalised prediction.", "quantifier": "all data sets, all selections, all coefficients, all rows", "why_tests_cant": "an identity over all data", "anchors": ["featselect/lasso_lars.go:Path2Unnormalized", "featselect/normalized_dataset.go:LinearTransformationBias", "featselect/normalized_dataset.go:LinearNormalizationTransformation"]}
{"id": "C50", "title": "Nested lasso reports features by their original number", "statement": "In NestedLasso, MapSelectionByName maps a selected column of the current data set to the column of the original data set with the same feature name.", "quantifier": "all data sets, all target columns, all selections", "why_tests_cant": "all target positions; the test uses the last column", "anchors": ["featselect/nestedLasso.go:MapSelectionByName", "featselect/nestedLasso.go:NestedLasso"]}
{"id": "C51", "title": "Nested lasso shrinks and stops, and leaves its input alone", "statement": "With 0 < keep < 1 the number of features strictly decreases each round and the loop stops, after at most one round more than the k with keep^k * features >= 3; the caller's data set is unchanged.", "quantifier": "all data sets, all keep fractions", "why_tests_cant": "termination for all inputs", "anchors": ["featselect/nestedLasso.go:NestedLasso", "featselect/lassoPlot.go:PickMostRelevantFeatures"]}
{"id": "C52", "title": "SoftThreshold solves the one-dimensional lasso problem", "statement": "For threshold >= 0 SoftThreshold(x,t) is the unique minimiser over b of (b-x)^2/2 + t*|b|; it is odd, non-expansive, and zero iff |x| <= t.", "quantifier": "all reals x, all thresholds t >= 0, all competitors b", "why_tests_cant": "optimality is against every real", "anchors": ["featselect/lassoCrdDesc.go:SoftThreshold"]}
{"id": "C53", "title": "Every coordinate update decreases the lasso objective", "statement": "For an exact covariance matrix with positive diagonal, each sweep of LassoCrdDesc keeps covDotBeta equal to the covariance matrix times the current coefficients and never increases the lasso objective; the result is therefore never worse than the zero vector.", "quantifier": "all data, all iteration counts, all active sets", "why_tests_cant": "an invariant over an unbounded number of sweeps", "anchors": ["featselect/lassoCrdDesc.go:LassoCrdDesc", "featselect/lassoCrdDesc.go:UpdateCovDotBeta", "featselect/lassoCrdDesc.go:MulSlice"]}
{"id": "C54", "title": "A fixed point of coordinate descent is a lasso solution", "statement": "If a full sweep over all features changes no coefficient, the coefficients minimise the lasso objective over all vectors with the same first coordinate.", "quantifier": "all data, all competitors", "why_tests_cant": "optimality is against every vector", "anchors": ["featselect/lassoCrdDesc.go:LassoCrdDesc"]}
{"id": "C55", "title": "LassoCrdDesc returns an optimal solution when it reports convergence", "statement": "When LassoCrdDesc stops because of convergence with no unsatisfied KKT condition, the KKT conditions of the lasso problem hold for every feature (up to tol).", "quantifier": "all data, all tolerances", "why_tests_cant": "a dropped feature must be re-examined on every path", "anchors": ["featselect/lassoCrdDesc.go:LassoCrdDesc", "featselect/lassoCrdDesc.go:UnsatisfiedKKTConditions"]}
{"id": "C56", "title": "LassoCrdDesc starts from x0 and may select any feature", "statement": "The starting vector passed to LassoCrdDesc is used and left unchanged, and every feature may become non-zero.", "quantifier": "all data, all starting vectors", "why_tests_cant": "non-interference is about pairs of runs", "anchors": ["featselect/lassoCrdDesc.go:LassoCrdDesc"]}
{"id": "C57", "title": "LassoCrdDescPath returns one solution per lambda in decreasing order under every schedule", "statement": "Whatever the schedule of the workers, every lambda is solved exactly once, no nil node is dereferenced, the call does not deadlock, and the returned slice lists the solutions for lambs from last to first without the leading empty ones (all of them if none has features). For corrections without state the result is therefore a function of the input alone.", "quantifier": "all lambda lists, all schedules", "why_tests_cant": "schedules of 11 goroutines", "anchors": ["featselect/lassoCrdDesc.go:LassoCrdDescPath", "featselect/lassoCrdDesc.go:PerformLassoCrd"]}
{"id": "C58", "title": "L2ConsistentCovTO averages each grid point over exactly numSamples partitions", "statement": "Under every schedule, when the loop ends each grid point has received exactly numSamples values, one for each partition, computed from that partition; the loop never deadlocks; the chosen threshold is the grid point with the smallest mean.", "quantifier": "all grid sizes, sample counts and schedules", "why_tests_cant": "schedules and counts are unbounded", "anchors": ["featselect/thresholdCov.go:L2ConsistentCovTO", "featselect/thresholdCov.go:PerformNormDiffWork", "featselect/thresholdCov.go:CalculateFNormDiff"]}
{"id": "C59", "title": "Thresholding is idempotent and removes exactly the small entries", "statement": "ThresholdOperator.Apply zeroes exactly the entries with magnitude below the threshold, leaves the others, counts them, and applying it again changes nothing.", "quantifier": "all matrices, all thresholds", "why_tests_cant": "all inputs", "anchors": ["featselect/thresholdCov.go:Apply"]}
{"id": "C60", "title": "Covariance matrices are symmetric and positive semidefinite", "statement": "Empirical.Get and CovarianceMatrix return symmetric matrices, CovarianceMatrix is the mean of the centred outer products, and both quadratic forms are non-negative.", "quantifier": "all matrices, all vectors", "why_tests_cant": "positive semidefiniteness is about every vector", "anchors": ["featselect/covarianceMatrix.go:Get", "featselect/thresholdCov.go:CovarianceMatrix"]}
{"id": "C61", "title": "Random row splits partition the rows", "statement": "For every outcome of the shuffle RandomRowSplit puts every row of X into exactly one of its two results, num rows in the first.", "quantifier": "all matrices, all splits, all shuffles", "why_tests_cant": "all permutations", "anchors": ["featselect/thresholdCov.go:RandomRowSplit", "featselect/cohens_kappa.go:GetCohensKappa"]}
{"id": "C62", "title": "Orthogonal matching pursuit returns a consistent result", "statement": "Order of the result of Omp lists distinct features, Coeff is zero outside Order and on Order is the fit of exactly those columns; the run stops early only if the RMSE is below tol.", "quantifier": "all data sets, all tolerances", "why_tests_cant": "depends on the order in which features enter, and on repeats", "anchors": ["featselect/orthogonalMatchingPursuit.go:Omp"]}
{"id": "C63", "title": "A LARS path is well formed", "statement": "Every node of a path returned by LassoLars has a strictly increasing, non-empty, in-range Selection with as many coefficients; the lambdas never increase along the path and all exceed lambMin, and for lambMin >= 0 the loop ends.", "quantifier": "all data, all estimators, all path lengths", "why_tests_cant": "an invariant over an unbounded number of join and cross events", "anchors": ["featselect/lasso_lars.go:LassoLars", "featselect/lasso_lars.go:maxJoinTime", "featselect/lasso_lars.go:maxCrossTime", "featselect/lasso_lars.go:NewLassoLarsNode"]}
{"id": "C64", "title": "LARS nodes satisfy the equicorrelation condition", "statement": "If the active columns are linearly independent and the estimator returns c and d of the normal equations, each active feature has correlation exactly lambda times its sign with the residual of the node's coefficients; if no inactive correlation exceeds lambda and signs match, the node minimises the lasso objective.", "quantifier": "all data, all active sets, all lambda", "why_tests_cant": "optimality against every vector", "anchors": ["featselect/lasso_lars.go:betaLARS", "featselect/lasso_cd.go:C", "featselect/lasso_cd.go:D"]}
{"id": "C65", "title": "PseudoInverse satisfies the Moore-Penrose equations", "statement": "If the tolerance is not negative and every singular value (for PseudoInverseXTX its square) is either above the tolerance or zero, PseudoInverse returns the Moore-Penrose inverse, PseudoInverseXTX that of X^T X, and MorsePenroseCD.C returns the minimum-norm least-squares coefficients.", "quantifier": "all matrices with their SVD", "why_tests_cant": "identities over all matrices", "anchors": ["featselect/util.go:PseudoInverse", "featselect/util.go:PseudoInverseXTX", "featselect/lasso_cd.go:C"]}
{"id": "C66", "title": "DenumMatrixGcv is the hat matrix", "statement": "DenumMatrixGcv(X) is symmetric and idempotent, reproduces every column of X, and its diagonal lies in [0,1], if every singular value squared exceeds 1e-6 or is zero.", "quantifier": "all matrices", "why_tests_cant": "identities over all matrices", "anchors": ["featselect/fit.go:DenumMatrixGcv", "featselect/fit.go:Gcv"]}
{"id": "C67", "title": "PickMostRelevantFeatures lists features by entry", "statement": "The result has no duplicates, lists features in order of first appearance along the path, contains at least numFeat features if the path has that many, and all features of the path otherwise.", "quantifier": "all paths, all counts", "why_tests_cant": "all inputs", "anchors": ["featselect/lassoPlot.go:PickMostRelevantFeatures"]}
{"id": "C68", "title": "Path criteria pair each coefficient with its own feature", "statement": "GetCriteria evaluates the criterion at the RSS of the node's sparse coefficients on the data set, and ExtractPath returns the coefficient of the feature or 0.", "quantifier": "all paths, all data sets", "why_tests_cant": "pairing depends on the order of Selection", "anchors": ["featselect/lassoPlot.go:GetCriteria", "featselect/lassoPlot.go:ExtractPath"]}
{"id": "C69", "title": "Lasso corrections are derivatives of their penalties", "statement": "PureLasso equals ElasticNet with Lamb 0; ElasticNet.Deriv is the derivative of Lamb*beta_j^2/2; CLasso.Deriv is eta times the projection on the last coefficients, is 0 before the first Update, is homogeneous in beta.", "quantifier": "all coefficient vectors", "why_tests_cant": "identities over the reals", "anchors": ["featselect/lassoCorrections.go:Deriv", "featselect/lassoCorrections.go:Update"]}
{"id": "C70", "title": "Views read through to the underlying data", "statement": "IndexedColView, IndexedColVecView and SliceVec return exactly the selected entries, have the dimensions of the selection, and compose.", "quantifier": "all matrices, all index lists", "why_tests_cant": "all inputs", "anchors": ["featselect/subview.go:At", "featselect/subview.go:Dims", "featselect/sliceVec.go:AtVec"]}
{"id": "C71", "title": "WeightedAveragedCoeff is the weighted sum of the full coefficient vectors", "statement": "For in-range, duplicate-free selections the result equals the weighted sum of the FullCoeffVector of each model; different lengths panic.", "quantifier": "all weights and coefficient sets", "why_tests_cant": "all inputs", "anchors": ["featselect/util.go:WeightedAveragedCoeff", "featselect/util.go:FullCoeffVector"]}
{"id": "C72", "title": "bnb command finishes and saves the final list", "statement": "Under every schedule of the search goroutine, the ticker and the main loop, findOptimalSolution terminates once the search does, and the last write of the output file happens after the last insertion.", "quantifier": "all schedules", "why_tests_cant": "schedules", "anchors": ["cmd/bnb.go:findOptimalSolution", "cmd/bnb.go:setSearchFinished", "cmd/bnb.go:saveHighscoreList"]}
{"id": "C73", "title": "The reported number of pruned models is at most the number of models", "statement": "At any time 2^Log2NumPruned as reported through SearchProgress is at most 2^ncols.", "quantifier": "all data sets, all root models, all schedules, all reports of a run", "why_tests_cant": "schedules and data sets are unbounded; tests look at one final value", "anchors": ["featselect/optimize.go:SelectModel", "featselect/util.go:NewLog2Pruned", "featselect/searchProgress.go:Set"]}
{"id": "C74", "title": "Integer slice helpers return what they say for every slice", "statement": "All tells whether every entry equals the value, ExistInt whether some entry does, EqualInt whether two slices are the same list; Sum is the sum; MaxInt and MinInt return the largest and smallest entry of every non-empty slice of 32-bit values, and the 32-bit limits for an empty slice.", "quantifier": "all slices, all values", "why_tests_cant": "all inputs", "anchors": ["featselect/util.go:All", "featselect/util.go:ExistInt", "featselect/util.go:EqualInt", "featselect/util.go:Sum", "featselect/util.go:MaxInt", "featselect/util.go:MinInt"]}
{"id": "C75", "title": "The elastic net correction solves the elastic net problem", "statement": "With the ElasticNet correction of weight Lamb >= 0, each iteration of LassoCrdDesc never increases the elastic net objective (squared error + lamb * L1 norm + Lamb/2 * squared L2 norm), the result is never worse than the zero vector, and a full sweep that changes no coefficient has reached a minimiser.", "quantifier": "all data with positive diagonal of the covariance matrix, all weights, all iteration counts", "why_tests_cant": "The iteration treats the quadratic penalty explicitly (it uses the old coefficient); whether that converges depends on the size of the weight relative to the data.", "anchors": ["featselect/lassoCrdDesc.go:LassoCrdDesc", "featselect/lassoCorrections.go:Deriv"]}
{"id": "C76", "title": "Thresholded covariance matrices keep the large entries and stay positive semidefinite", "statement": "SparseThresholded.Get returns a symmetric matrix with exactly the entries of the empirical covariance matrix that are not below the threshold, panics for a matrix other than that of the constructor, and the result is positive semidefinite.", "quantifier": "all matrices, all thresholds", "why_tests_cant": "Needs the quadratic form for every vector and every matrix; tests look at single entries.", "anchors": ["featselect/covarianceMatrix.go:Get", "featselect/thresholdCov.go:Apply"]}
{"id": "C77", "title": "GetCohensKappa is the mean kappa of complementary halves", "statement": "For every sequence of shuffles the two index sets of a sample are complementary and of equal size up to one; the result is the mean of the kappas of the samples, lies in [-1,1], is 1 exactly if in every sample both halves select the same features; it is NaN without samples or if one sample selects all features twice.", "quantifier": "all targets, all shuffles, all sample counts", "why_tests_cant": "The shuffles are random; a test sees a few of them.", "anchors": ["featselect/cohens_kappa.go:GetCohensKappa"]}
{"id": "C78", "title": "Gcv is the leave-one-out cross-validation score", "statement": "For least-squares predictions and the matrix of DenumMatrixGcv, Gcv is the root mean square of the residuals that each row has in a fit to all other rows.", "quantifier": "all data sets where no row is reproduced by every fit", "why_tests_cant": "The value is plausible for every data set; only the exact identity shows whether it is a cross-validation score.", "anchors": ["featselect/fit.go:Gcv", "featselect/fit.go:DenumMatrixGcv"]}
{"id": "C79", "title": "PlotPath draws every feature of the path", "statement": "PlotPath adds one line per feature of the path, with the coefficient of that feature at every node.", "quantifier": "all paths", "why_tests_cant": "A plot is not compared to the data by a test; a missing line shows only for some features.", "anchors": ["featselect/lassoPlot.go:PlotPath"]}
{"id": "C80", "title": "The entrance line has each feature at its largest regularization", "statement": "MaxMinFeatNo returns the smallest and the largest feature of the path. The line of PlotEntranceTimes has exactly one point per feature that is selected somewhere, at the largest regularization where it is selected, in ascending order of features.", "quantifier": "all paths with at least one feature", "why_tests_cant": "Features that leave and re-enter, or that are never selected between others, occur only in special paths.", "anchors": ["featselect/lassoPlot.go:PlotEntranceTimes", "featselect/lassoPlot.go:MaxMinFeatNo"]}
{"id": "C81", "title": "L2ConsistentCovTO searches the documented grid up to maxThreshold", "statement": "The threshold returned is a multiple of sqrt(log p / n) for a matrix with n rows and p columns, and does not exceed the parameter maxThreshold.", "quantifier": "all matrices, sample counts, steps, partitions and schedules", "why_tests_cant": "The result depends on random partitions; a test has no value to compare it with.", "anchors": ["featselect/thresholdCov.go:L2ConsistentCovTO", "featselect/thresholdCov.go:getThreshold"]}
{"id": "C82", "title": "L2ConsistentCovTO returns a threshold for every matrix that can be split", "statement": "For every matrix with two or more rows, every positive step up to 9 and every sample count the call returns a threshold, whatever the random partitions and the schedule.", "quantifier": "all row counts, steps, sample counts, shuffles and schedules", "why_tests_cant": "The size of the first part depends on a logarithm of the row count; tests use larger matrices.", "anchors": ["featselect/thresholdCov.go:L2ConsistentCovTO", "featselect/thresholdCov.go:RandomRowSplit"]}
{"id": "C83", "title": "LARS nodes solve the lasso problem", "statement": "Every node of a path that LassoLars returns minimises the lasso objective at its lambda, and so does the linear interpolation of the coefficients of two consecutive nodes at every lambda between them; with normalised data and an estimator that solves the normal equations LassoLars does not panic.", "quantifier": "all normalised data, all lambMin >= 0", "why_tests_cant": "Tests compare a few nodes with known solutions; events that nearly coincide are not among them.", "anchors": ["featselect/lasso_lars.go:LassoLars", "featselect/lasso_lars.go:tJoin", "featselect/lasso_lars.go:tCross"]}
{"id": "C84", "title": "LARS paths reach lambMin", "statement": "The path covers all regularisations down to lambMin: for every lambda between lambMin and the lambda of the last node, a solution of the lasso problem uses only features of the last node; an empty path means that no feature is used at lambMin.", "quantifier": "all normalised data, all lambMin >= 0", "why_tests_cant": "A path that stops early is well formed; only the missing solutions show it, and those are not part of the output.", "anchors": ["featselect/lasso_lars.go:LassoLars", "featselect/lasso_lars.go:tJoin"]}
{"id": "C85", "title": "Lasso selections of a subsample are a function of the sampled rows", "statement": "GetSelection of a lasso Cohen target returns strictly ascending existing features, never the first (constant) one. The result is the same whatever calls were made before on the same target, for the plain lasso, the elastic net and the covariance lasso. With the empirical or identity covariance the order of the row indices does not matter.", "quantifier": "all targets, all row index lists, all states left by earlier calls", "why_tests_cant": "The target keeps the last coefficients and the correction its last state between calls; a leak shows only for particular sequences of samples.", "anchors": ["featselect/lassoCrdDesc.go:GetSelection", "featselect/lassoCrdDesc.go:LassoCrdDesc"]}
{"id": "C86", "title": "The identity covariance decouples the lasso", "statement": "With the identity covariance and no correction LassoCrdDesc returns, for every maxIter >= 1 and whatever tol and start vector, exactly the separate one-dimensional lasso solutions: each coefficient but the first is the unique minimiser of (b-c)^2/2 + lambda*|b| with c the mean of x_j*y.", "quantifier": "all data, all lambda >= 0, all tolerances, iteration limits and start vectors", "why_tests_cant": "Intermediate state (betaOld, covDotBeta, active indices) is carried between sweeps; only an invariant shows that no sweep order or convergence test changes the result.", "anchors": ["featselect/lassoCrdDesc.go:LassoCrdDesc", "featselect/covarianceMatrix.go:Get"]}
{"id": "C87", "title": "The lasso command saves the data as read and criteria that match it", "statement": "A file written by the lasso command holds the data set exactly as read (not the normalised copy), a path whose nodes select distinct existing columns in ascending order with one coefficient each and whose regularisation never grows, and for every node the AICc and BIC of exactly these coefficients on exactly these data. With coordinate descent the nodes are, from the largest lambda of Logspace(lmin, lmax, num) down, what LassoCrdDesc returns for that lambda, the tolerance and covariance type of the flags on the normalised data.", "quantifier": "all data sets, flags, algorithms, covariance types, shuffles and schedules", "why_tests_cant": "Normalisation works in place and is undone node by node; tests of the parts do not show that data, coefficients and criteria in the file belong together.", "anchors": ["cmd/lasso.go:lassoFit", "featselect/lasso_lars.go:Path2Unnormalized", "featselect/lassoPlot.go:GetCriteria"]}
{"id": "C88", "title": "The lasso command writes a file unless a node fits exactly", "statement": "The command writes no file exactly when the covariance type of coordinate descent is unknown or a node of the path fits the response without error (its criterion is minus infinity, which JSON cannot hold). With LARS and lmin >= 0, decompositions that are exact and not truncated, and a first column that is constant or has a standard deviation of at least 1e-10, no node fits exactly, so a file is always written. An unknown algorithm is not reported: the file is written with an empty path.", "quantifier": "all data sets and flags for which the command does not panic", "why_tests_cant": "Exact fits are rare events for sampled data; that LARS never has one is a statement about all paths.", "anchors": ["cmd/lasso.go:lassoFit", "featselect/lasso_lars.go:LassoLars"]}
{"id": "C89", "title": "The printed table ranks the best models of the path", "statement": "PrintHighscore prints the best num nodes by AICc, or all when there are fewer: no node twice, ascending criterion, every row with the regularisation, number of coefficients, AICc and BIC of one and the same node, and no node that is left out has a smaller AICc than a printed one. Nodes that fit exactly (criterion minus infinity) come first.", "quantifier": "all paths, criteria and numbers; any order of ties", "why_tests_cant": "Rows could mix values of different nodes or repeat one for particular orders only.", "anchors": ["featselect/util.go:PrintHighscore", "featselect/util.go:Argsort"]}
{"id": "C90", "title": "Saved lasso models have the errors of the lasso fit", "statement": "On the data as read, the residual sum of squares of a saved node is that of the lasso fit in normalised units times the variance of the response.", "quantifier": "all data sets with finite normalised response, all flags", "why_tests_cant": "Depends on the data having a column for the intercept; the loss is a plausible number.", "anchors": ["cmd/lasso.go:lassoFit", "featselect/lasso_lars.go:Path2Unnormalized", "featselect/normalized_dataset.go:LinearTransformationBias"]}
{"id": "C91", "title": "sasearch saves each listed model with its own fit", "statement": "The sasearch command saves at most ten pairwise different non-empty models. The score of each is minus the AICc of the least squares fit of its own columns, BestItem is the best of all accepted models, and every entry carries one coefficient per selected feature, those of its own fit.", "quantifier": "all data sets, numbers of sweeps and random numbers", "why_tests_cant": "Which model is the last of a full list when the eleventh is accepted depends on the random walk; stale coefficients are plausible numbers.", "anchors": ["cmd/sasearch.go:saSearch", "featselect/simmulatedAnnealing.go:SelectModelSA", "featselect/saScore.go:Insert"]}
{"id": "C92", "title": "The best model that the bnb command saves is optimal", "statement": "When the bnb command ends, the first model of the saved list has a score (minus AICc of its least squares fit) at least as high as every model with at least one feature and fewer features than rows, in particular the one from which the search started.", "quantifier": "all data sets, outcomes of the first search, cutoffs, queue sizes and schedules of the goroutines", "why_tests_cant": "Whether the start model is the optimum depends on random numbers; the loss of the optimum is invisible in the output.", "anchors": ["cmd/bnb.go:findOptimalSolution", "featselect/optimize.go:SelectModel"]}
{"id": "C93", "title": "A queue of 2^(columns-1) nodes never overflows", "statement": "With MaxItems other than 1 the queue of SelectModel never holds more than 2^(ncols-1) nodes. If MaxQueueSize is at least that (the command default is enough for 24 columns, the library default for 34), no subtree is removed for lack of space and (MaxItems at least 2) the result is optimal as in C12. The bound is sharp, and from the start there is always a schedule that ends without a torn read.", "quantifier": "all data, root models, highscore histories and schedules", "why_tests_cant": "The number of interleavings and of data sets is unbounded; a test sees one queue length.", "anchors": ["featselect/optimize.go:SelectModel", "featselect/optimize.go:RemoveLeastPromising"]}
{"id": "C94", "title": "A saved lasso file is loaded and plotted as it was written", "statement": "Reading back a file that the lasso command wrote gives the same data, path, names and criteria. The quality plot then shows for every node its AICc, and the deviation plot the decimal logarithm of its root mean square error on the saved data, both over the decimal logarithm of its regularisation and in the order of the path. They panic exactly when the path has no nodes, a regularisation is not positive or a node fits without error. A malformed file, such as one that was cut off or continued, is not reported: it loads as an empty path.", "quantifier": "all files, data sets, paths and nodes", "why_tests_cant": "Every point of a plot would have to be compared with the model for every file.", "anchors": ["featselect/lassoPlot.go:LassoLarsPathFromJSON", "featselect/lassoPlot.go:PlotQualityScores", "featselect/lassoPlot.go:PlotDeviations"]}
{"id": "C95", "title": "goselect-plotlasso draws the path with the requested range", "statement": "The command draws every figure that was asked for: the features by the point at which they enter the path, and the path of the coefficients restricted to the range given by coeffmin and coeffmax.", "quantifier": "all files and flags for which the command does not panic", "why_tests_cant": "The ignored flags change only axes of a picture; tests never look at them.", "anchors": ["cmdDepreciated/goselect-plotlasso/main.go:main", "featselect/lassoPlot.go:PlotEntranceTimes"]}
{"id": "C96", "title": "goselect-mem prints the largest queue that fits in memory", "statement": "The number printed for a number of features and an amount of memory is the largest queue length such that any queue of that many search nodes over these features takes at most the given memory, by the estimate of the nodes themselves. The nodes of a branch-and-bound search are such nodes, and if the number is at least 2^(features-1), a search with this maximal queue size drops nothing and never needs more memory.", "quantifier": "all numbers of features, all amounts of memory, all executions of the search", "why_tests_cant": "Concerns all queues and all schedules; a test sees one node.", "anchors": ["cmdDepreciated/goselect-mem/main.go:main", "featselect/node.go:EstimateMemory"]}
{"id": "C97", "title": "Averaging the models of a path averages their predictions", "statement": "The average of the nodes of a lasso path with weights from information criteria has, for each feature, the weighted sum of its coefficients in the nodes (0 where it is not selected). Its predictions are the weighted sums of the predictions, and its sum of squared errors is at most the weighted mean of those of the nodes, hence never more than the worst node. The weights are proportional to the squares of Akaike weights. Nodes are built with equally many coefficients and selected features, or not at all.", "quantifier": "all data, criteria and paths over existing features", "why_tests_cant": "An inequality over all data sets and weights; exponentials are irrational.", "anchors": ["featselect/lasso_lars.go:LassoNodesSlice2SparsCoeff", "featselect/lasso_lars.go:NewLassoLarsNode", "featselect/util.go:WeightedAveragedCoeff", "featselect/util.go:WeightsFromAIC"]}
{"id": "C98", "title": "goselect-cohenlasso ranks every regularisation of its grid", "statement": "On a data set that can be normalised, with a grid of numbers, the command does not panic and ends under every schedule. It prints one line for every regularisation of the grid, in ascending order of kappa; each kappa is a number from -1 to 1, the mean agreement of the lasso selections on the two halves over numSamp shuffles, with no influence of earlier fits of the target. It finds a regularisation with the largest kappa, or none if no kappa is positive.", "quantifier": "all data sets, grids, numbers of samples, shuffles and schedules of the workers", "why_tests_cant": "Shuffles and schedules are random; whether a half contains a constant column depends on data and shuffle.", "anchors": ["cmdDepreciated/goselect-cohenlasso/main.go:cohensKappaPureLasso", "featselect/cohens_kappa.go:CalculateCohenSequence", "featselect/cohens_kappa.go:GetCohensKappa", "featselect/lassoCrdDesc.go:GetSelection"]}
{"id": "C99", "title": "Exact fits do not hurt the branch-and-bound command", "statement": "If some models fit the data exactly, SelectModel still returns a best model (exact fits rank above all others), and the file that the bnb command has written when it ends can be loaded and holds the highscore list.", "quantifier": "all data sets, root models and schedules", "why_tests_cant": "Tests use noisy data; that json.Marshal refuses infinite scores, and that the error is dropped, shows only on data with an exact relation.", "anchors": ["cmd/bnb.go:saveHighscoreList", "featselect/criteria.go:bounds", "featselect/criteria.go:Aicc", "featselect/optimize.go:SelectModel", "featselect/highscore.go:MarshalJSON"]}
{"id": "C100", "title": "The nested lasso file is consistent", "statement": "The data set, the coefficients and the criteria in the file that goselect-nestedlasso writes belong together: evaluating a saved node on the saved data (or on the data of the user) gives the AICc and BIC saved with it; the saved data set is the normalised one; a file is written for every run of NestedLasso that returns; and with the default keep fraction of 0.8 it holds at most one path more than log(features/3)/log(1.25).", "quantifier": "all data sets, keep fractions, regularisation limits and decompositions", "why_tests_cant": "Tests look at the selections only; that coefficients, data and criteria are in different units, and that criteria ignore the intercept, cannot be seen from a stored file.", "anchors": ["cmdDepreciated/goselect-nestedlasso/main.go:nestedLasso", "featselect/nestedLasso.go:NestedLasso", "featselect/lasso_lars.go:Path2Unnormalized", "featselect/lassoPlot.go:GetCriteria"]}
{"id": "C101", "title": "The regularisation chosen by agreement selects features", "statement": "CalculateCohenSequence, as goselect-cohenlasso calls it with its default flags, returns a regularisation with which the lasso selects at least one feature of the data; and if the grid contains a regularisation of at least 1, the one that is returned selects the same features in the two halves of each of its samples.", "quantifier": "all data sets, grids, shuffles and schedules of the workers", "why_tests_cant": "The agreement of two empty selections and the largest correlation of normalised data decide the outcome; which of several perfect regularisations is returned depends on the schedule.", "anchors": ["cmdDepreciated/goselect-cohenlasso/main.go:cohensKappaPureLasso", "featselect/cohens_kappa.go:CalculateCohenSequence", "featselect/util.go:CohenKappa", "featselect/lassoCrdDesc.go:GetSelection"]}
{"id": "C102", "title": "The hyper parameters of a kappa target are those that act", "statement": "Two covariance-lasso targets (NewCLassoCohen) on the same data, with the same covariance, limits and kind of correction, that report the same HyperParameters, select the same features from any rows, whatever calls came before. A target reports its regularisation under lamb and, for the covariance lasso, eta, and nothing else. GetSelection panics unless data and covariance are set and a correction is set or no iterations are allowed; while the number of iterations is not set it selects nothing. A new target panics until its data are set, and reports 0 for every parameter. GetX gives the matrix of the data. Two targets have the same StringRep exactly when their reported parameters are printed alike.", "quantifier": "all targets, settings, rows and earlier calls", "why_tests_cant": "That a reported parameter is never read, and that unset fields panic or silently select nothing, is a statement about all settings.", "anchors": ["featselect/lassoCrdDesc.go:NewPureLassoCohen", "featselect/lassoCrdDesc.go:NewCLassoCohen", "featselect/lassoCrdDesc.go:GetSelection", "featselect/lassoCrdDesc.go:HyperParameters"]}
{"id": "C103", "title": "A saved data set can be read from its file", "statement": "When Save has returned, ReadCSV with the target column of the data set (or that column counted from the end) reads the data set from the file, every value rounded to six decimals, whatever the file held before, and no other file has changed. Save panics exactly when the file can be created, there are rows and the target column or the number of targets does not fit the matrix. ReadCSV returns nil exactly for a file that cannot be opened; the commands then panic.", "quantifier": "all data sets, file names, file systems and text formats that round-trip", "why_tests_cant": "Tests write to a place that is writable; that failures are silent shows only where it is not.", "anchors": ["featselect/csvIO.go:ReadCSV", "featselect/csvIO.go:Save", "featselect/csvIO.go:SaveHandle", "featselect/csvIO.go:ParseCSV"]}
{"id": "C104", "title": "On orthogonal columns LassoLars is soft thresholding", "statement": "For data with mutually orthogonal columns, LassoLars with an estimator that solves the normal equations returns, and its path has one node for each feature whose absolute correlation with y exceeds lambMin, in decreasing order of that correlation (ties in order of the columns). The regularisation of a node is the correlation of the feature that enters; the coefficient of each feature is its correlation moved towards 0 by the regularisation, divided by the squared length of the column; and these coefficients minimise the lasso objective.", "quantifier": "all data with orthogonal columns, responses, tolerances, limits and estimators", "why_tests_cant": "The closed form is known only for such data, of any size; tests compare a few values for one matrix, and the case that fails needs a correlation just below the tolerance of the code.", "anchors": ["featselect/lasso_lars.go:LassoLars", "featselect/lasso_lars.go:tJoin", "featselect/lasso_lars.go:maxJoinTime"]}
{"id": "C105", "title": "Nested lasso ends for every keep fraction", "statement": "NestedLasso, and with it goselect-nestedlasso, returns for every fraction of features to keep, on data with varying columns and response, the target in the last column, and a path of LassoLars for every choice of columns.", "quantifier": "all data sets, keep fractions and estimators", "why_tests_cant": "Non-termination cannot be observed by a test; it needs an invariant of all rounds.", "anchors": ["featselect/nestedLasso.go:NestedLasso", "featselect/lassoPlot.go:PickMostRelevantFeatures", "cmdDepreciated/goselect-nestedlasso/main.go:main"]}
{"id": "C106", "title": "With enough iterations LassoCrdDesc stops at a lasso solution", "statement": "On data with non-zero columns and for lambda > 0, LassoCrdDesc stops by itself and without a warning once the iteration limit is large enough for the tolerance, and the lasso objective of its result tends to the minimum (over vectors without the first feature) as the limit grows and the tolerance goes to zero.", "quantifier": "all data, lambdas and tolerances; the limit of infinitely many iterations", "why_tests_cant": "The statement is about the limit of infinitely many iterations and the minimum over all vectors.", "anchors": ["featselect/lassoCrdDesc.go:LassoCrdDesc", "featselect/lassoCrdDesc.go:UnsatisfiedKKTConditions"]}
{"id": "C107", "title": "The model found does not depend on units and order", "statement": "SelectModel and BruteForceSelect on the same data in other units (features and response multiplied by constants other than 0) and with rows and columns in another order find the same models: the residual sum of squares of every model changes by the square of the factor of the response, all scores change by the same number, the best models are the same features, with the same predictions, and, if the columns are independent, the same coefficients in the new units.", "quantifier": "all data sets, units, permutations of rows and columns, decompositions, options and schedules", "why_tests_cant": "A metamorphic statement about all data sets and all schedules of the search; a test compares two runs.", "anchors": ["featselect/fit.go:Fit", "featselect/optimize.go:SelectModel", "featselect/optimize.go:BruteForceSelect", "featselect/criteria.go:Aicc"]}
{"id": "C108", "title": "LassoLars and LassoCrdDesc agree", "statement": "A node of the path of LassoLars and LassoCrdDesc without a correction, called with the regularisation of the node, give the same coefficients: both are solutions of the same lasso problem, all solutions have the same predictions and, for a positive regularisation, the same sum of absolute coefficients, and there is only one if the columns are independent; with enough iterations coordinate descent comes as close to the node as desired.", "quantifier": "all normalised data, all nodes of all paths, all regularisations, tolerances and numbers of iterations", "why_tests_cant": "Two algorithms agree on all data and in the limit of many iterations; a test compares them on a few data sets with a loose tolerance.", "anchors": ["featselect/lasso_lars.go:LassoLars", "featselect/lassoCrdDesc.go:LassoCrdDesc", "cmd/lasso.go:lassoFit"]}
{"id": "C109", "title": "UnsatisfiedKKTConditions lists the violated conditions", "statement": "Given the correlations with the response and the covariance matrix times the coefficients, UnsatisfiedKKTConditions returns, in ascending order, exactly the features other than the first whose optimality condition of the lasso problem (with its correction) does not hold.", "quantifier": "all data, coefficients, regularisations and corrections", "why_tests_cant": "The condition depends on the scale of real numbers; a test checks one coefficient vector of one data set.", "anchors": ["featselect/lassoCrdDesc.go:UnsatisfiedKKTConditions", "featselect/lassoCrdDesc.go:MulSlice"]}
{"id": "C110", "title": "The lasso command does not depend on units", "statement": "When columns of the data and the response are given in other units (a positive factor and a shift each), the lasso command computes the same path: the same regularisations and selected columns in the same order, coefficients converted to the new units, and predictions that are those of the old units, converted; AICc and BIC of all nodes change by the same number, so that the table lists the same nodes in the same order, and a file is written in both cases or in none.", "quantifier": "all data, units, algorithms, covariance types, flags and schedules", "why_tests_cant": "Quantifies over all units and all data; a test compares one data set in two units.", "anchors": ["cmd/lasso.go:lassoFit", "featselect/normalized_dataset.go:NewNormalizedData", "featselect/lasso_lars.go:Path2Unnormalized"]}
{"id": "C111", "title": "SelectModel tolerates rounding errors", "statement": "Let the criterion values be below 1e100 in size, no model fit exactly (nor, with as many columns as rows, have a residual sum of squares below 1e-12), and the search start from the empty model or have fewer columns than rows. If every residual sum of squares that SelectModel computes is off by at most the relative error d, and every AICc by at most e, then, on return without overflow message and torn read, the AICc of the model reported first exceeds that of every other model different from the root by at most twice e + n log(1/(1-d)), n the number of rows; the factor two cannot be improved. If the rounding is monotone and the computed residual sums of squares do not grow when features are added, no model has a better computed score than the first one reported.", "quantifier": "all data, rounding errors, starting models and schedules", "why_tests_cant": "Quantifies over all rounding errors and schedules; a test sees one data set and one rounding.", "anchors": ["featselect/optimize.go:SelectModel", "featselect/criteria.go:BoundsAICC", "featselect/criteria.go:Aicc"]}
{"id": "C112", "title": "CSV files are read as the tables they show", "statement": "ParseCSV reads a file of a header and lines with equally many numbers, two at least, as the table it shows: the names of the header, the chosen column (counted from the end if negative) as target, the other columns in their order as features, every number in decimal notation - sign, point, exponent - with its value if the number format has it, blanks around names and numbers ignored as in the example of the README; lines may end with \\n or \\r\\n, the last one with neither. A line with another number of fields than the header makes ParseCSV panic.", "quantifier": "all tables, decimal numbers, number formats and target columns", "why_tests_cant": "All spellings of numbers and tables; the files of the tests have no blanks.", "anchors": ["featselect/csvIO.go:ParseCSV", "featselect/csvIO.go:ReadCSV"]}
{"id": "C113", "title": "Simulated annealing ends", "statement": "SelectModelSA and sasearch return for every number of sweeps, on every data set with at least one column and as many responses as rows for which no cost exceeds MaxFloat64, for every sequence of random numbers in which every column is drawn again and again and the numbers that decide about acceptance stay below some number smaller than 1, as those of math/rand do.", "quantifier": "all data sets, cost functions, numbers of sweeps and such sequences of random numbers", "why_tests_cant": "Termination over all infinite random streams: the temperature may first rise without bound.", "anchors": ["featselect/simmulatedAnnealing.go:SelectModelSA", "cmd/sasearch.go:saSearch"]}
{"id": "C114", "title": "Simulated annealing can find every model of its search space", "statement": "Every model with at least one feature and fewer than nrows/2 features can be found by SelectModelSA: there are at most ncols draws of columns and a positive bound such that, if these columns are drawn first and the random numbers that decide about acceptance are below the bound, the search (with at least one sweep) visits the model, and BestItem of the result then costs no more than it; if it is cheaper than all other such models BestItem is it.", "quantifier": "all data sets, cost functions, numbers of sweeps and models", "why_tests_cant": "Reachability in a random walk over exponentially many models.", "anchors": ["featselect/simmulatedAnnealing.go:SelectModelSA", "featselect/saScore.go:Insert"]}
{"id": "C115", "title": "Missing values in the target column are noticed", "statement": "A data file whose target column contains NaN or an infinite value (ParseCSV reads the words nan, inf and infinity, in any case and the last two also with a sign, as these values) is noticed: SelectModelSA with Aicc, which sasearch and bnb run, returns for such a response as it does for a finite one (at least one sweep, fair random numbers, no cost of a finite response above the largest float64), and the lasso command (type lars, lambda_min >= 0, every column but the first with a standard deviation of at least 1e-10) writes no result file for it.", "quantifier": "all data sets, responses with any number of NaN or infinite values, all random numbers, any behaviour of the linear algebra library on such values", "why_tests_cant": "That a loop runs forever for every sequence of random numbers cannot be observed by running it.", "anchors": ["featselect/simmulatedAnnealing.go:SelectModelSA", "featselect/csvIO.go:ParseCSV", "cmd/sasearch.go:saSearch", "cmd/bnb.go:findOptimalSolution", "cmd/lasso.go:lassoFit"]}
{"id": "C116", "title": "Reading and saving the highscore list while the search inserts", "statement": "One goroutine (SelectModel) inserts nodes into a new highscore list with MaxItems >= 2 while other goroutines read it without a lock, on a memory that is sequentially consistent. Then no insertion panics and the list always becomes the one that the insertions demand; BestScore never panics and returns the best score of the list before or after an insertion that goes on during the call; Len is the length of such a list, or one more than that of a list that is not empty; and MarshalJSON, which the bnb command calls every minute during the search, does not panic and returns the items of the list as it was before or after an insertion that goes on during the call.", "quantifier": "all sequences of nodes, all MaxItems >= 2, all interleavings of the single reads of a reader with the single writes of the insertions", "why_tests_cant": "A torn read needs a reader to stop between two particular loads of container/list; the race is too rare for tests, and the bnb command saves only once a minute.", "anchors": ["featselect/highscore.go:Insert", "featselect/highscore.go:BestScore", "featselect/highscore.go:Len", "featselect/highscore.go:MarshalJSON", "cmd/bnb.go:findOptimalSolution", "cmd/bnb.go:saveHighscoreList", "featselect/optimize.go:CreateChild"]}
{"id": "C117", "title": "At a given temperature simulated annealing is the Metropolis chain", "statement": "Take a state of SelectModelSA in which some model has been accepted, for data with as many responses as rows and costs that do not overflow; let the index of the next iteration be uniform over the columns and its random number uniform in [0,1). Then the model held after the iteration is model b with exactly the probability of the Metropolis chain at the current temperature on the models with at least one feature and fewer features than half the number of rows: a neighbour (one feature added or removed) has probability min(1, exp(-(cost difference)/temperature)) / number of columns, and the rest stays. This chain is in detailed balance with the Boltzmann distribution of the temperature, which is stationary; with at least six rows its n-step probabilities converge to it from every model; and at low temperature the distribution concentrates on the cheapest model.", "quantifier": "all data, cost functions, reachable states, temperatures, pairs of models; all numbers of steps in the limit", "why_tests_cant": "A probability cannot be read off from test runs, and a slightly wrong acceptance rule gives plausible results that are distributed wrongly.", "anchors": ["featselect/simmulatedAnnealing.go:SelectModelSA"]}
{"id": "C118", "title": "The list of SelectModel contains the best models", "statement": "Let MaxItems be at least 2. When SelectModel returns without overflow message and without an interleaved first insertion between BestScore() and Len() in CreateChild, the highscore list ('keeps track of the best models') contains, with their own fits and scores, the best models other than the root with at least one feature and fewer features than rows: a missing one is not better than any listed one, and something is missing only if the list holds at least MaxItems-1 models.", "quantifier": "all data sets, root models (all-false, or fewer columns than rows), list contents before, all goroutine schedules", "why_tests_cant": "Tests look at the first entry; which further models survive depends on the order in which the goroutines evaluate nodes.", "anchors": ["featselect/optimize.go:SelectModel", "featselect/optimize.go:CreateChild", "featselect/criteria.go:BoundsAICC", "featselect/highscore.go:Insert"]}
{"id": "C119", "title": "SelectModel and BruteForceSelect agree", "statement": "For data with more rows than columns and valid node bounds (which C03 gives for exact fits), SelectModel, started with an empty list (MaxItems at least 2) and the default root model, ends with the same BestScore as BruteForceSelect if it returns without overflow message and without an interleaved first insertion between BestScore() and Len() in CreateChild; if no two models have the same AICc, the first entries of both lists are the same model with the same coefficients and score.", "quantifier": "all data sets with more rows than columns, all goroutine schedules", "why_tests_cant": "The comparison in the tests runs one schedule for a few random matrices.", "anchors": ["featselect/optimize.go:SelectModel", "featselect/optimize.go:BruteForceSelect"]}
{"id": "C120", "title": "Orthogonal matching pursuit finds sparse signals", "statement": "Let the response be non-zero and exactly X b, where b vanishes outside k columns; let all columns be non-zero and let the cosine between any two of them be at most mu in absolute value, with (2k-1) mu < 1. If the fits of the sets of these k columns are not truncated, Omp with any positive tolerance selects none but these columns, so at most k, its RMSE is below the tolerance, and the squared errors of the coefficients, each multiplied by the squared length of its column, sum up to less than rows * tol^2 / (1-(k-1) mu). If the tolerance is so small that rows * tol^2 <= (1-(k-1) mu) * (b_i * length of column i)^2 for each of the k columns, Order is a permutation of exactly these columns and Coeff is exactly b. If columns are closer to each other, the pursuit can start with a wrong column.", "quantifier": "all matrices, also with more columns than rows, all sparse b, all tolerances, any decomposition with the contract of a singular value decomposition", "why_tests_cant": "Recovery of sparse signals is why a user chooses this algorithm; a test shows it for single signals only.", "anchors": ["featselect/orthogonalMatchingPursuit.go:Omp"]}
{"id": "C121", "title": "The command lines of the help texts work", "statement": "The example lines in the help texts of goselect bnb and goselect sasearch run the command with the values shown. More generally options may be given as --name value or --name=value in any order, mixed with other words: each option has the last value given for it and otherwise its documented default; whole numbers are read as written; -h or --help prints the help and does nothing else; a name that is no option, a value that is not a number where one is needed and a missing value end the program with an error before any work.", "quantifier": "all command lines, all file names, all 64 bit whole numbers", "why_tests_cant": "The tests call the library and never the flag parser; the space of command lines is infinite.", "anchors": ["cmd/bnb.go:init", "cmd/sasearch.go:init", "cmd/lasso.go:init", "cmd/root.go:Execute"]}
{"id": "C122", "title": "Parameters of SelectModel can be used again", "statement": "A SelectModelOptParams can be passed to several calls of SelectModel, on data sets of any width: each call searches with the cutoff, queue size and root model that the caller has set, an unset root model meaning the empty model.", "quantifier": "all parameters, all sequences of calls", "why_tests_cant": "The tests use nil parameters, each in one call.", "anchors": ["featselect/optimize.go:SelectModel", "featselect/optimize.go:NewSelectModelOptParams"]}
{"id": "C123", "title": "With many sweeps simulated annealing finds the best models", "statement": "Let the data have at least six rows, as many responses as rows, at least one column and no cost above MaxFloat64, and let the random numbers be independent, with a chance for every column together with a small number that does not vanish (as uniform draws have). Then the probability that SelectModelSA returns the best models of its search space (at least one and fewer than half as many features as rows) tends to one as nSweeps grows, geometrically: BestItem is as cheap as every such model, and if a model is missing in the list of the result, the list has ten entries that are all at least as cheap.", "quantifier": "all data sets with six rows or more, cost functions and distributions of independent random numbers", "why_tests_cant": "A probability over all random sequences and a limit in the number of sweeps.", "anchors": ["featselect/simmulatedAnnealing.go:SelectModelSA", "featselect/saScore.go:Insert"]}
{"id": "C124", "title": "Orthogonal matching pursuit finds sparse signals in noise", "statement": "Let the response be X b plus noise of Euclidean length at most eta, where b vanishes outside k >= 1 columns; let all columns be non-zero and let the cosine between any two of them be at most mu in absolute value, with (2k-1) mu < 1; let the fits of the sets of these k columns not be truncated. If eta < sqrt(rows) * tol, and for each of the k columns sqrt(rows) * tol + eta <= (1-(k-1) mu) * |b_i| * length of column i and 2 eta < (1-(2k-1) mu) * |b_i| * length of column i, then Order is a permutation of exactly these columns, the RMSE is below the tolerance, and the squared errors of the coefficients, each multiplied by the squared length of its column, sum up to at most eta^2 / (1-(k-1) mu). With random noise of mean square at most sigma^2 in every row, exactly these columns are found except with probability rows * sigma^2 / eta^2.", "quantifier": "all matrices, also with more columns than rows, all sparse b, all noise vectors and distributions with a second moment, all tolerances, any decomposition with the contract of a singular value decomposition", "why_tests_cant": "Measured data are noisy; whether the right columns survive the noise is a statement about infinitely many noise vectors.", "anchors": ["featselect/orthogonalMatchingPursuit.go:Omp"]}
{"id": "C125", "title": "The lasso finds the features of a sparse signal", "statement": "Let the response be X b plus noise, where b vanishes outside k columns, these columns have the squared length q, and their scalar product with every other column is at most mu * q in absolute value with (2k-1) mu < 1; let no column have a scalar product above eps with the noise. Whenever (1+mu) eps < lambda (1-(2k-1) mu), every solution of the lasso problem at lambda is zero outside the k columns and differs from b by at most (lambda+eps)/(q (1-(k-1) mu)) in every coefficient; if that is less than |b_i| for each of the k columns, exactly these columns are used, with the signs of b. In a LassoLars run without degenerate iterations this holds for every node of the path and every interpolation between two consecutive nodes. With uncorrelated random noise of mean square at most sigma^2 in the rows, solutions for all such lambda are zero outside the k columns except with probability (sigma/eps)^2 times the sum of the squared column lengths.", "quantifier": "all data and column sets with the stated coherence, all noise vectors and uncorrelated noise distributions with a second moment, all lambda, all minimisers", "why_tests_cant": "Which features the solution uses for infinitely many noise vectors and regularisations cannot be sampled; the conditions name the regularisations for which the selection can be trusted.", "anchors": ["featselect/lasso_lars.go:LassoLars"]}
{"id": "C126", "title": "Random partitions are uniform and the sampled kappa is an unbiased, consistent estimate", "statement": "With fair independent random numbers in rand.Shuffle, every sequence of orders of the rows is equally likely over the samples of GetCohensKappa, although the slice is not reset between the samples, and every set of rows of the required size is equally likely to be the first part of RandomRowSplit. The mean of the result of GetCohensKappa over the random numbers is the mean kappa of all divisions of the rows, and the result differs from it by t or more with probability at most 1/(numSamples t^2). The mean over the samples of any value computed from a partition of RandomRowSplit is unbiased in the same sense.", "quantifier": "all numbers of rows and samples, all targets whose kappas are finite, all t > 0", "why_tests_cant": "A test sees one stream of random numbers; a shuffle that misses some orders or prefers some rows passes all checks on single partitions.", "anchors": ["featselect/cohens_kappa.go:GetCohensKappa", "featselect/thresholdCov.go:RandomRowSplit", "featselect/thresholdCov.go:L2ConsistentCovTO"]}
{"id": "C127", "title": "Along the lasso path the fit improves and the coefficients grow", "statement": "For two regularisations lambda < lambda' and any solutions of the lasso problem on the same data, the one at lambda has a sum of squared errors that is at most that of the other, and a sum of absolute coefficients that is at least that of the other; the squared distance of their predictions is at most the difference of the regularisations times the difference of the sums of absolute coefficients. In a LassoLars run without degenerate iterations this holds for all points of the broken line through its nodes.", "quantifier": "all data, all regularisations, all minimisers, all points of all paths", "why_tests_cant": "A path has infinitely many points, and solutions need not be unique; a test compares a few nodes.", "anchors": ["featselect/lasso_lars.go:LassoLars"]}
{"id": "C128", "title": "Small changes of the response change the fits little, and the order of the columns does not matter", "statement": "Fit on the same matrix with two responses: the sum of the squared differences of the predictions, and of the residuals, is at most that of the responses, and that of the coefficients at most 10^12 times as large, however close to singular the matrix is. Lasso solutions with the same regularisation have the first of these properties, too; with the columns in another order or with other signs their predictions are the same, and so are the coefficients, up to order and sign, if the columns are independent. The same holds for all points of LassoLars paths of runs without degenerate iterations.", "quantifier": "all matrices, responses, regularisations, orders and signs of columns, all minimisers, any decomposition with the contract of a singular value decomposition", "why_tests_cant": "Perturbations and orders form infinite families; an ill-conditioned matrix on which a perturbation is amplified need not be among the tested ones.", "anchors": ["featselect/fit.go:Fit", "featselect/lasso_lars.go:LassoLars"]}
{"id": "C129", "title": "Reading a highscore list never panics, whatever the file holds", "statement": "UnmarshalJSON of a Highscore, called with any text on any list (including the zero value), returns an error and leaves the list as it was, or reads the nodes of the text: the list then has the capacity of the text, is sorted, is not longer than its capacity, and holds only nodes that it held before or that are in the text. It never panics. Files written by MarshalJSON are always read.", "quantifier": "all texts, all receivers, all number formats", "why_tests_cant": "Files can be damaged, edited or written by other programs in endlessly many ways; tests read back what the program has just written.", "anchors": ["featselect/highscore.go:UnmarshalJSON", "featselect/highscore.go:Insert", "featselect/node.go:UnmarshalJSON"]}
{"id": "C130", "title": "Fits of noisy data are unbiased and have the smallest variance", "statement": "Let the response be X times some coefficients plus noise that has mean 0, is uncorrelated between rows and has the same variance s in every row, and let the columns of X be linearly independent (and no singular value be truncated). (1) On average the coefficients returned by Fit are the true ones. (2) Any other procedure that computes the coefficients as weighted sums of the responses and is exact on noise-free data has, for every combination of the coefficients, a mean squared error that is not smaller; and only a procedure that returns the same as Fit for every response has the same one. (3) On average the squared distance between the predictions of the fit and the noise-free response is s for each column. (4) For an arbitrary mean response, the residual sum of squares of a model with k features on n rows is on average that of the model for the mean response plus (n - k) s; for a model that contains every feature of the signal, dividing it by n - k gives s on average.", "quantifier": "every design matrix with independent columns, true coefficients, noise distribution with the stated moments on any probability space, competing linear estimator, combination of coefficients", "why_tests_cant": "an average over all noise is not visible in any finite number of fits, and the comparison is with every other linear procedure", "anchors": ["featselect/fit.go:Fit", "featselect/fit.go:Rss", "featselect/criteria.go:bounds"]}
{"id": "C131", "title": "With many rows no feature of the signal is missed, and Bic selects the right model", "statement": "Let the response be a linear signal in some of the columns plus noise of mean zero and equal variance sigma^2, uncorrelated between the rows. Let every model of some features be fitted exactly, and let every model that misses a feature of the signal leave at least D of the sum of squares of the signal unexplained. Then the probability that some model missing a feature has a score at least as good as the right model is at most an explicit bound in D, sigma, the number of rows and the number of models, both with Aicc and with Bic. This includes models selected by the branch-and-bound search and the best model visited by simulated annealing. If D grows in proportion to the number of rows, this probability tends to zero. With Bic also the probability that a model with superfluous features scores at least as well tends to zero when the noise of the rows is independent with finite fourth moments, so the right model is the only best one with probability tending to one.", "quantifier": "for all designs, coefficients, right models, noise distributions with the stated moments and numbers of rows; the limits for all sequences of designs", "why_tests_cant": "A test with simulated data sees a few samples; the claim bounds a probability over all noise, and its limit over all numbers of rows.", "anchors": ["featselect/criteria.go:Aicc", "featselect/criteria.go:Bic", "featselect/optimize.go:SelectModel", "featselect/fit.go:Rss"]}
{"id": "C132", "title": "Accesses of the goroutines of SelectModel to shared memory", "statement": "SelectModel starts eight goroutines that score nodes and eight that make children. They share the nodes of the search, the highscore list, the design matrix and the response. Apart from one comparison, all accesses to them are ordered by the channels: no two goroutines access the same memory, one of them writing, without one access happening before the other. The exception is the comparison of a child's lower bound with the best score of the list (line 252 of optimize.go). A child worker reads the list, and the score of its first node, without synchronisation. The read of the list can race with the insertion of a node by the main loop, and the read of the score with the write of that score by a score worker; there are no other data races. When SelectModel returns, everything that any goroutine has accessed happens before the return and nothing is accessed afterwards. The caller may then read and change the list, its nodes and the data, although goroutines may be left behind.", "quantifier": "All data, bounds, criteria, root models and options, all capacities of the highscore list other than one, empty lists and lists filled before, all schedules, all assignments of nodes to workers.", "why_tests_cant": "A race detector reports the races of the schedules that a test run happens to take; that all races are between line 252 and a writer, and that the return is a point of synchronisation for every schedule, concerns all interleavings.", "anchors": ["featselect/optimize.go:SelectModel", "featselect/optimize.go:CreateChild", "featselect/optimize.go:CreateChildNodes", "featselect/optimize.go:ScoreWorker"]}
{"id": "C133", "title": "A highscore list copes with NaN scores", "statement": "Nodes with the score NaN (a fit of data with missing values) may be inserted into a highscore list with MaxItems >= 2 along with others. The numbers among the scores are in descending order and are the largest numbers inserted, and BestScore() is the largest number inserted.", "quantifier": "All capacities >= 2, all sequences of insertions, any number and positions of NaN scores.", "why_tests_cant": "All comparisons with NaN are false, so what happens depends on the places of all NaNs in the whole history; a test fixes one history.", "anchors": ["featselect/highscore.go:Insert", "featselect/highscore.go:BestScore", "featselect/highscore.go:Scores", "featselect/highscore.go:NewHighscore"]}
{"id": "C134", "title": "Missing values do not hide the best of the other models", "statement": "The criterion of some models may be NaN, for example of all models with a column that has missing values. When SelectModel returns (MaxItems >= 2, no queue-overflow message, no interleaved first insertion), BestScore() is nevertheless the score of the best of the models with a number as criterion other than the root, if no lower bound exceeds the criterion of a model that it covers. If the response itself has a value NaN or infinite, SelectModel with the empty root model and list returns a list in which no score is a finite number.", "quantifier": "All patterns of NaN among criteria and bounds, all root models (all-false, or fewer columns than rows), all schedules; for the response any number of NaN or infinite values and any behaviour of the linear algebra library on them.", "why_tests_cant": "Comparisons with NaN are false, so that both pruning and the order of the list depend on which node is inserted first, which differs between schedules.", "anchors": ["featselect/optimize.go:SelectModel", "featselect/optimize.go:CreateChild", "featselect/optimize.go:CleanQueue", "featselect/highscore.go:Insert", "featselect/criteria.go:bounds"]}
{"id": "C135", "title": "Constant columns are recognised in floating point arithmetic", "statement": "In the binary64 arithmetic of the machine (round to nearest even, subnormal numbers, no overflow) NewNormalizedData panics for data with a constant column other than the first, takes a constant first column for the constant term (HasBias, a column of zeros), and NormalizeArray turns equal numbers into NaN.", "quantifier": "All data sets with at least two rows, all constants.", "why_tests_cant": "Exact arithmetic gives standard deviation 0 for every constant; whether the computed mean of equal numbers is that number depends on the last binary digits of the constant and on the number of rows, so that tests with round numbers always pass.", "anchors": ["featselect/normalized_dataset.go:NewNormalizedData", "featselect/util.go:Mean", "featselect/util.go:Std", "featselect/util.go:NormalizeArray"]}
{"id": "C136", "title": "Rounding errors of predictions and criteria", "statement": "Let every operation be off by at most the relative error u and math.Log by v (double precision without underflow and overflow: u = 2^-53), and let the whole numbers up to 2 rows^2 be exact. PredictOne on p numbers is off by at most (1+u)^(p+1)-1, relative to the sum of the absolute values of its products. If the inner products of the linear algebra library are off by at most g in this sense, Rss lies between (1-u)^(rows+3) (s - g a)^2 and (1+u)^(rows+3) (s + g a)^2, where s is the square root of the exact residual sum of squares of these coefficients (the lower bound if g a <= s) and a the length of the vector of the sums of absolute products. Aicc is off by at most (1+u)^3 (1+v) - 1, relative to 2k + rows |log RSS| + the correction term. If the predictions are off by at most e times the length of the residuals (e <= 1), the computed coefficients have a residual sum of squares at most 1+t times the least one, no model fits exactly (nor, with as many columns as rows, has a residual sum of squares below 1e-12), and the criteria are of usual size, then the AICc of the model that SelectModel reports first (started from the empty model, or with more rows than columns; no overflow message, no torn read) exceeds that of every other model except the root by at most twice ((1+u)^3 (1+v) - 1) (2 rows^2 + rows L) + rows log(1/(1-d)), where L bounds the absolute values of the logarithms of the computed residual sums of squares and d = (1+u)^(rows+3) (1+e)^2 (1+t) - 1 is below 1. For up to 1000 rows, double precision, v = 2^-52, e = t = 1e-9 and L = 700 this is less than 1e-5.", "quantifier": "All data sets, all rounding functions and orders of summation within these errors, all schedules.", "why_tests_cant": "Tests compare with a tolerance on a few data sets; how errors of single operations add up over rows, and how far a search that compares rounded numbers can be misled, cannot be tested.", "anchors": ["featselect/fit.go:PredictOne", "featselect/fit.go:Predict", "featselect/fit.go:Rss", "featselect/criteria.go:Aicc", "featselect/optimize.go:SelectModel"]}
{"id": "C137", "title": "Tables of numbers with six decimals survive reading and saving", "statement": "ParseCSV reads every number in decimal notation below 2^1024 - 2^970 as the float64 that is closest to it (of two, the one with the even significand), so with a relative error of at most 2^-53 unless it is subnormal; larger numbers are read as 0. A file as encoding/csv writes it, with numbers of six decimals (no plus sign, no superfluous leading zero) below 2^33 in magnitude, is reproduced character by character when it is read with ParseCSV and saved with SaveHandle. A saved value is read back unchanged exactly if it is the closest float64 of some number with six decimals, in particular always from 2^33 on; a data set of such values comes back as it was saved.", "quantifier": "all decimal numbers, all float64 values, all tables, names without the line break \\r\\n, all target columns", "why_tests_cant": "the boundary at 2^33 and the rounding of every decimal number cannot be sampled; round trips must hold for all values of all files", "anchors": ["featselect/csvIO.go:ParseCSV", "featselect/csvIO.go:SaveHandle"]}
{"id": "C138", "title": "Numbers in JSON files are exact and as short as possible", "statement": "Every finite float64, subnormal numbers and negative zero included, has a JSON literal of at most 17 significant digits that is read back as exactly this number, so data sets and nodes saved with MarshalJSON come back with every bit of every number, and saving a loaded data set again gives the same text. No literal with fewer digits would do: a number that was given with at most 15 digits (and is not smaller than 2^-1022) is written with exactly these digits, and a literal without superfluous characters that is zero or between 0.000001 and 1e21 in magnitude is reproduced character by character. 16 digits are not enough for all numbers: the float64 sum of 0.1 and 0.2 needs 17.", "quantifier": "all finite float64 values, all decimal numbers with at most 15 digits, all data sets with rows and columns, all nodes", "why_tests_cant": "there are 2^64 numbers and infinitely many literals; that no two numbers share a literal and no 15 digits are lost is a statement about all of them", "anchors": ["featselect/csvIO.go:MarshalJSON", "featselect/csvIO.go:UnmarshalJSON", "featselect/node.go:MarshalJSON", "featselect/node.go:UnmarshalJSON"]}
{"id": "C139", "title": "Normalised data are accurate up to rounding errors", "statement": "In floating point arithmetic with relative error u per operation, NewNormalizedData normalises n rows (at least two) with error eta = (n + 10) u as long as eta is at most 1/100: columns whose standard deviation is at least 1.02e-10 are never refused as constant columns, the squares of each normalised column (and of the normalised response, if its numbers differ) sum to n - 1 up to a relative error of 2 eta, its mean is 0 up to 2 eta (1 + k), and every normalised number z differs from the exact one by at most 4 eta (1 + k)(1 + |z|), where k is the mean absolute value of the numbers divided by their standard deviation. In double precision u = 2^-53, so that this covers up to 2^46 rows. Mean is off by at most ((1+u)^(n+1) - 1) times the mean absolute value, Std by at most a factor 2 eta (1 + 2 k).", "quantifier": "all matrices and responses with 2 to 2^46 rows, all roundings with the given relative error", "why_tests_cant": "rounding errors depend on the order and size of all numbers; tests compare a few columns with a tolerance that was chosen for them", "anchors": ["featselect/normalized_dataset.go:NewNormalizedData", "featselect/util.go:Mean", "featselect/util.go:Std", "featselect/util.go:NormalizeArray"]}
{"id": "C140", "title": "Lasso by coordinate descent works in floating point", "statement": "Raw data with at least two rows, normalised and fitted in double precision (no overflow or underflow): let every column but the first have a standard deviation of at least 1.02e-10 and the response not be constant, 0 < \u03bb <= 1, and let the number n of sweeps times the number of columns, N, be small enough that N\u00b7E\u00b2 <= 1/5 with E = (9N + 6\u00b7rows + 40)/(2^53\u00b7\u03bb). Then, whatever the order in which inner products are added up, the magnitudes of the coefficients that LassoCrdDesc returns add up to at most 1.02/\u03bb (they do not blow up), and if the loop ended because convergence was reported, every selected feature (coefficient above 1e-16) satisfies the KKT condition of the lasso up to 1.04\u00b7tol\u00b7m\u00b7columns + E, where m is the magnitude of one of the coefficients. The same holds for any rounding with relative error u and inner products with relative error \u03b3 on data of unit scale, with E = (9N\u00b7u + 28u + 5\u03b3)/\u03bb, and the lasso objective then ends at most 3\u00b7N\u00b7E\u00b2 above its value at zero. Without rounding the computation is that of C55.", "quantifier": "every data set, \u03bb, tolerance and number of sweeps; every rounding with bounded relative error; every order of summation in inner products", "why_tests_cant": "The vector cov\u00b7beta is updated incrementally and never recomputed, so that rounding errors accumulate over all sweeps; whether they stay harmless can only be shown by an error analysis that covers every step. Tests see a few data sets.", "anchors": ["featselect/lassoCrdDesc.go:LassoCrdDesc", "featselect/lassoCrdDesc.go:SoftThreshold", "featselect/lassoCrdDesc.go:UpdateCovDotBeta", "featselect/lassoCrdDesc.go:MulSlice", "featselect/lassoCrdDesc.go:UnsatisfiedKKTConditions", "featselect/covarianceMatrix.go:Get", "featselect/normalized_dataset.go:NewNormalizedData"]}
{"id": "C141", "title": "A gap in one feature does not hide the others from coordinate descent", "statement": "Let feature columns be normalised with NewNormalizedData and fitted with LassoCrdDesc, and let one further feature be given that has a missing or infinite value (NaN, +Inf or -Inf). The features found among the others are those that are found without the further feature. (With no gaps the fit is that of the algorithm for numbers.)", "quantifier": "every data set, position of the gap, response, penalty, tolerance and number of iterations", "why_tests_cant": "Whether a NaN spreads depends on which inner products it enters and on comparisons that are false for NaN; tests use complete data. The failure is silent: the result is the empty selection with a warning about convergence.", "anchors": ["featselect/lassoCrdDesc.go:LassoCrdDesc", "featselect/lassoCrdDesc.go:SoftThreshold", "featselect/lassoCrdDesc.go:UpdateCovDotBeta", "featselect/lassoCrdDesc.go:MulSlice", "featselect/lassoCrdDesc.go:UnsatisfiedKKTConditions", "featselect/covarianceMatrix.go:Get", "featselect/normalized_dataset.go:NewNormalizedData"]}
{"id": "C142", "title": "Simulated annealing passes over features with missing values", "statement": "A data matrix with NaN or infinite values in some columns does not spoil SelectModelSA with a finite response: under random numbers for which the search ends on complete data, it ends, and the returned selection and every listed model consist of columns without such values, with the coefficients and scores that the fit of those columns has.", "quantifier": "all matrices and positions of the missing values, responses, numbers of sweeps, costs that carry on NaN and infinity (such as Aicc), fair sequences of random numbers, any behaviour of the singular value decomposition on missing values", "why_tests_cant": "A rejected proposal leaves no trace, so a test sees nothing wrong; whether the search ends depends on the share of accepted proposals over unboundedly many draws.", "anchors": ["featselect/simmulatedAnnealing.go:SelectModelSA", "featselect/fit.go:Fit", "featselect/fit.go:Rss", "cmd/sasearch.go:saSearch"]}
{"id": "C143", "title": "Missing values in a feature column are noticed by the lasso command", "statement": "A data set with NaN or an infinite value in a feature column never leads to a result file of the lasso command with type lars: the path from LassoLars gets no node, since the command panics in the first iteration, or, when there is no iteration, writing the result fails. With complete data the same steps are those of the path for numbers.", "quantifier": "all data sets with any number of missing values in any feature column, all responses (complete or not), all smallest penalties, any result of the linear algebra library, any order of summation in inner products", "why_tests_cant": "Whether a comparison with NaN turns into a panic, an endless loop or a silently wrong node depends on where the gap is and on which feature joins first; a test has one position.", "anchors": ["featselect/lasso_lars.go:LassoLars", "featselect/normalized_dataset.go:NewNormalizedData", "cmd/lasso.go:lassoFit"]}
{"id": "C144", "title": "With random draws simulated annealing ends despite missing values", "statement": "Let a data matrix have NaN or infinite values in some columns, but at least one column without them, at least four rows, and a finite response. If the random numbers of SelectModelSA are independent, with a chance for every column together with a small number that does not vanish (as uniform draws have), and there is at least one sweep, then with probability one the search ends, and the returned selection and every listed model consist of columns without such values, with the coefficients and scores that the fit of those columns has.", "quantifier": "all matrices and positions of the missing values (also in the first column, with which the search starts), responses, numbers of sweeps, costs that carry on NaN and infinity (such as Aicc), distributions of independent random numbers, any result of the singular value decomposition on missing values", "why_tests_cant": "The search ends only after half of the proposals of some sweep were accepted, which with many incomplete columns is a rare event; a test that waits for it cannot tell a long search from an endless one.", "anchors": ["featselect/simmulatedAnnealing.go:SelectModelSA", "featselect/fit.go:Fit", "featselect/fit.go:Rss", "cmd/sasearch.go:saSearch"]}
{"id": "C145", "title": "The reported number of pruned models is accurate in floating point", "statement": "The number Log2NumPruned that SelectModel reports is computed in floating point by repeated calls of NewLog2Pruned. Every reported value is a number, and it differs from the logarithm of one plus the sum of 2^(columns - level) over the pruned branches by at most (u+e)*(4*columns+16) per pruned branch, where u is the accuracy of the arithmetic and e that of math.Pow and math.Log2, as long as these errors sum up to at most 1/2. The values are never NaN, never negative, and never decrease.", "quantifier": "all data, search settings, interleavings of the workers, and reports; all accuracies u and e, all numbers of pruned branches", "why_tests_cant": "The value goes through up to billions of rounded powers and logarithms, and the powers overflow for wide data; tests check a few calls of NewLog2Pruned with small numbers.", "anchors": ["featselect/util.go:NewLog2Pruned", "featselect/optimize.go:SelectModel", "cmd/bnb.go:findOptimalSolution"]}
{"id": "C146", "title": "Model weights are reliable in floating point", "statement": "WeightsFromAIC computes the weights in floating point. For every list of at most 2^53 criteria the weights are numbers between 0 and 1, a smaller criterion never has a smaller weight, a criterion of plus infinity has weight 0, and the weight of the smallest criterion is at least the rounded value of 1/n. With n criteria, accuracies u of the arithmetic, t of underflow and e of math.Exp, and n(u+e+t) at most 1/8, the weights sum to 1 up to 3(n+1)(u+t), and each weight is within 4(n+1)(u+e+t) of the exact one when no number exceeds 2^1022 in absolute value.", "quantifier": "all lists of criteria (numbers, infinities, NaN), all accuracies of the arithmetic and of math.Exp", "why_tests_cant": "Rounding errors accumulate over the whole list and depend on every value; tests compare a few short lists with a tolerance and contain no infinite criterion.", "anchors": ["featselect/util.go:WeightsFromAIC", "featselect/util.go:MinFloat"]}
{"id": "C147", "title": "Regularisation grids are accurate in floating point", "statement": "For positive ends min <= max whose logarithms are at most A in absolute value, Logspace computed in floating point returns num numbers that never decrease, and value i is within the relative error 30*A*(u+e+num*t) of min^(1-i/(num-1))*max^(i/(num-1)), where u and t are the accuracy of the arithmetic and e that of math.Log and math.Exp; with correctly rounded binary64 the relative error is below 1e-11 for ends between 1e-300 and 1e300. If an end is not a positive number and num is at least 2, the first value is NaN (all values, if min is 0 or negative), and goselect lasso --type cd with such a grid writes no file, whatever the data.", "quantifier": "all ends (numbers, infinities, NaN), all numbers of values from 2 to 2^53, all accuracies; all data sets and schedules of the workers", "why_tests_cant": "Tests of Logspace compare one grid with a tolerance; the error depends on the ends and on the number of values, and no test passes an end that is 0.", "anchors": ["featselect/util.go:Logspace", "featselect/lassoCrdDesc.go:LassoCrdDescPath", "cmd/lasso.go:lassoFit"]}
{"id": "C148", "title": "Rounding never makes an unstable selection look perfectly stable", "statement": "In floating point CohenKappa of two selections of n features (not both of all features) is a number within 46*n*(u+t) of the exact kappa, where u and t are the accuracy of the arithmetic; it is exactly 1 if the selections have the same members and at most 1-1/(8n) otherwise. GetCohensKappa over N samples is exactly 1 if the selections of the halves agree in every sample, and less than 1 otherwise. So if some target agrees in all its samples, the target whose hyper parameters CalculateCohenSequence returns agrees in all its samples too.", "quantifier": "all selections, all samples, all numbers of features and samples up to 2^26 with 64*n*N^2*(u+t) at most 1, all schedules of the workers", "why_tests_cant": "Whether a rounded mean of kappas equals 1 depends on every count; tests compare a few kappas with a tolerance.", "anchors": ["featselect/util.go:CohenKappa", "featselect/cohens_kappa.go:GetCohensKappa", "featselect/cohens_kappa.go:CalculateCohenSequence"]}
{"id": "C149", "title": "With many rows the criterion of the commands selects the right model", "statement": "Let the response be a linear signal in some of the columns plus independent noise of mean zero and equal variance, and let every model that misses a feature of the signal leave a part of the signal that grows in proportion to the number of rows (the conditions under which Bic finds the right model). Then with probability tending to one the right model is the only one of smallest Aicc, the criterion of SelectModel and of the commands.", "quantifier": "all designs, coefficients, right models and noise distributions with the stated moments; the refutation for all designs with a column that is not a linear combination of those of the signal and normal noise of any variance", "why_tests_cant": "The claim is about probabilities and a limit over the number of rows; a test sees single data sets.", "anchors": ["featselect/criteria.go:Aicc", "featselect/optimize.go:SelectModel", "featselect/fit.go:Fit"]}
{"id": "C150", "title": "goselect-cohenlasso recommends a positive regularisation", "statement": "Every regularisation that CalculateCohenSequence recommends when goselect-cohenlasso calls it (the hyper parameters of the largest kappa in its summary) is a positive number, close to a value of the grid that the flags lambMin, lambMax and numLamb describe.", "quantifier": "all data (also with missing values), numbers of samples, shuffles and schedules of the workers; positive ends from 1e-300 to 1e300 in binary64; the theorems about other ends for all roundings that keep integers, numLamb and numSamp up to 2^53", "why_tests_cant": "Whether a NaN in the grid wins depends on the arithmetic of NaN through the grid, the coordinate descent, the kappa and the schedule of 16 workers; tests use valid flags.", "anchors": ["cmdDepreciated/goselect-cohenlasso/main.go:cohensKappaPureLasso", "featselect/cohens_kappa.go:CalculateCohenSequence", "featselect/cohens_kappa.go:GetCohensKappa", "featselect/lassoCrdDesc.go:GetSelection", "featselect/util.go:Logspace"]}
{"id": "C151", "title": "Orthogonal matching pursuit passes over features with missing values", "statement": "NaN or infinite values in some columns of the data matrix do not affect what Omp does with the other columns: as long as one column is complete, Order and Coeff are those of the complete columns alone (renumbered), and columns with such values get the coefficient 0.", "quantifier": "all matrices and positions of the missing values, finite responses, tolerances; any behaviour of the singular value decomposition on missing values", "why_tests_cant": "The values spread through inner products, norms, a division and an argmax; tests use complete data, and the position of the column matters.", "anchors": ["featselect/orthogonalMatchingPursuit.go:Omp", "featselect/orthogonalMatchingPursuit.go:Argmax", "featselect/fit.go:Fit"]}
{"id": "C152", "title": "No data races in the worker pools", "statement": "The goroutines that LassoCrdDescPath, CalculateCohenSequence and L2ConsistentCovTO start never access the same memory without synchronisation: of two accesses, one of them a write, one happens before the other. When the first two return, all accesses of their workers have happened and none follow.", "quantifier": "all data, numbers of jobs, workers and features, corrections and covariances, and all schedules of the goroutines", "why_tests_cant": "A data race depends on the schedule and mostly has no visible effect; the race detector judges only the schedules it sees, and the tests are run without it.", "anchors": ["featselect/lassoCrdDesc.go:LassoCrdDescPath", "featselect/lassoCrdDesc.go:LassoCrdDesc", "featselect/lassoCrdDesc.go:PerformLassoCrd", "featselect/cohens_kappa.go:CalculateCohenSequence", "featselect/cohens_kappa.go:CohensKappaWorker", "featselect/thresholdCov.go:L2ConsistentCovTO", "featselect/thresholdCov.go:PerformNormDiffWork", "featselect/thresholdCov.go:Apply", "featselect/lassoCorrections.go:Update"]}
{"id": "C153", "title": "Lasso predictions are nearly as good as those of any coefficients", "statement": "Let f be the values without the noise. If no feature has an inner product with the noise beyond eps, the predictions of a lasso solution with a regularisation of at least eps have a squared distance from f that exceeds that of any coefficients b by at most 2(lamb+eps) times the sum of their absolute values. If f is a combination of s features that are not nearly combinations of the others, the squared error of the predictions is at most 9 lamb^2 s/phi and the total error of the coefficients at most 4 lamb s/phi (lamb at least 2 eps). With independent noise with normal or lighter tails this holds for eps = sigma sqrt(2 q log(2p/delta)) except with probability delta. The nodes of LassoLars and the points between them (no iteration degenerate) meet the bounds, and converged results of LassoCrdDesc the first one up to the tolerance, the violation of the optimality conditions by features given up, and without the first feature.", "quantifier": "all designs, targets, true values (linear in the features or not), regularisations, competing coefficients and noise distributions of the kind described", "why_tests_cant": "A bound on the distance from the unknown truth, for all competing models at once and for the probability over all noise; a test knows one sample of the noise.", "anchors": ["featselect/lasso_lars.go:LassoLars", "featselect/lassoCrdDesc.go:LassoCrdDesc"]}
{"id": "C154", "title": "The covariance lasso selects identical features together", "statement": "With the CLasso correction, which is documented to promote the selection of groups of correlated features, or with an ElasticNet of positive weight, LassoCrdDesc gives identical features (nearly) the same coefficient, as the minimiser of the penalised objective does.", "quantifier": "all data, regularisations, tolerances, weights, numbers of iterations and states in which earlier calls left the correction", "why_tests_cant": "The claim is about all data and all numbers of iterations, and about what two corrections with different code have in common; a test sees the coefficients for one matrix.", "anchors": ["featselect/lassoCorrections.go:Deriv", "featselect/lassoCorrections.go:Update", "featselect/lassoCrdDesc.go:LassoCrdDesc", "featselect/lassoCrdDesc.go:UnsatisfiedKKTConditions"]}
{"id": "C155", "title": "Copies of features leave the LARS path as it is", "statement": "Appending columns that are copies of columns already there does not change the path LassoLars returns: the same regularisations, selections and coefficients; no copy is ever selected.", "quantifier": "all data, numbers and positions of copies, tolerances, minimal regularisations, and estimators that solve the normal equations", "why_tests_cant": "The claim compares two runs for all data; whether it holds depends on whether a feature leaves the path, which happens only for special correlations between at least three features.", "anchors": ["featselect/lasso_lars.go:LassoLars", "featselect/lasso_lars.go:tJoin", "featselect/lasso_lars.go:tCross", "featselect/lasso_lars.go:maxJoinTime"]}
{"id": "C156", "title": "Redundant features are not selected", "statement": "A feature that is a linear combination of other selected features (a copy, a sum, a dummy column of a complete set) never improves a model: the fit is the same and AIC, AICC and (with at least two rows) BIC are strictly worse. The best model returned by SelectModel or BruteForceSelect contains no such feature (beside others), and Omp does not add one to features of which it is a combination.", "quantifier": "all data sets with exact fits, all models and features, all complete schedules of the search, all tolerances", "why_tests_cant": "Whether a model with collinear columns wins depends on the criterion for all data and on ties in the search; a test with one collinear data set does not exercise the tie of zero correlations in Omp.", "anchors": ["featselect/optimize.go:SelectModel", "featselect/optimize.go:BruteForceSelect", "featselect/orthogonalMatchingPursuit.go:Omp", "featselect/criteria.go:Aicc"]}
{"id": "C157", "title": "Orthogonal matching pursuit is nearly as good as the best subset", "statement": "Compare Omp with any coefficients of any k features, for example the best subset of k features: with each feature Omp selects, the excess of its squared error over theirs shrinks at least by the factor 1 - lambda/k, where lambda tells how far the columns (scaled to unit length) are from linear dependence. So if k features have an error below the tolerance, Omp selects at most about k/lambda times a logarithm of features.", "quantifier": "all data without zero columns and with exact fits, all tolerances, all k, all competing features and coefficients, all lambda > 0 for which the columns are so conditioned", "why_tests_cant": "A guarantee against all subsets of features of all data sets; a test compares with one known signal.", "anchors": ["featselect/orthogonalMatchingPursuit.go:Omp"]}
{"id": "C158", "title": "What a number of iterations of coordinate descent guarantees", "statement": "If LassoCrdDesc without correction uses up its N iterations, the LASSO objective at the result is above that at no vector with the same coefficients of the unselected features by more than a constant over N. The constant depends only on the number p of features, the penalty, the mean square of the response and the smallest and largest variance of a feature; for normalised data the excess is at most (4 p / lambda^2 + 1) / N. If the columns are independent, the excess shrinks by a constant factor with every iteration, and the coefficients approach the best ones as fast. If all features are selected, the comparison is with all vectors whose entry for the first feature, which the function leaves at 0, is 0.", "quantifier": "all data without zero columns (the first column excepted), all penalties, tolerances and iteration limits, all competing vectors", "why_tests_cant": "A speed of convergence for all data sets; a test sees one run on one data set.", "anchors": ["featselect/lassoCrdDesc.go:LassoCrdDesc"]}
{"id": "C159", "title": "What the progress of a running search tells about the best model", "statement": "Stop SelectModel at any time, or read its progress: of the models other than the root with at least one feature and fewer features than rows, those better than the best score reported are at most 2^ncols - 1 - NumExplored, and at most 2^ncols - (2^Log2NumPruned - 1)/2. The first bound also holds for the highscore list at any time. (As in C12, as long as no queue-overflow message was printed and no first insertion came between BestScore() and Len() in CreateChild.)", "quantifier": "all data sets with exact fits, root models, list contents before, schedules, and all moments of a run", "why_tests_cant": "Intermediate states under all schedules of the goroutines; a test only sees the final list.", "anchors": ["featselect/optimize.go:SelectModel", "featselect/optimize.go:CreateChild", "featselect/searchProgress.go:Get"]}
{"id": "C160", "title": "The lasso uses few features and does not miss the strong ones", "statement": "Let the target be a combination of s features, which are not nearly combinations of the others (compatibility constant phi), plus noise with which no feature has an inner product beyond lamb/2. Then a lasso solution with the regularisation lamb uses at most 36 L s/phi features, L being the largest eigenvalue of the matrix of inner products, and every feature whose true coefficient is beyond 4 lamb s/phi, with its sign; in any case the number of features times lamb^2 is at most L times the sum of the squared errors. With independent noise with normal or lighter tails this holds except with a given probability for a regularisation proportional to the standard deviation. All points of LassoLars paths (no iteration degenerate) are such solutions. Beside every solution there is one that uses a part of its features and at most as many as there are rows, fewer if the columns are centred; the nodes of LassoLars (no iteration degenerate) have that property themselves.", "quantifier": "all designs, targets, signals, regularisations, minimisers, noise distributions of the kind described, all points of all paths", "why_tests_cant": "Inequalities over all real data, and probabilities; a test sees one sample.", "anchors": ["featselect/lasso_lars.go:LassoLars"]}
{"id": "C161", "title": "How many samples the choice of a regularisation by agreement needs", "statement": "With fair independent random numbers, the result of GetCohensKappa is t or more away from the mean kappa of all divisions of the rows with probability at most 2 exp(-numSamples t^2/2). If CalculateCohenSequence with M targets returns the hyper parameters of one of them, then, under every schedule of the workers and except with probability 2 M exp(-numSamples t^2/2), the mean agreement of that target is above -t and less than 2t below that of every other target, and if it returns nil all mean agreements are below t. So 2/t^2 log(2M/delta) samples suffice for the best target to be returned with probability at least 1 - delta, if its mean agreement is at least t and at least 2t above those of the others.", "quantifier": "all numbers of rows, samples and targets, all targets whose kappas are finite, all t, delta > 0, all schedules", "why_tests_cant": "A probability over the random numbers, for all targets and schedules; a test sees a few runs.", "anchors": ["featselect/cohens_kappa.go:GetCohensKappa", "featselect/cohens_kappa.go:CalculateCohenSequence"]}
{"id": "C162", "title": "How many partitions the choice of the threshold needs", "statement": "With p columns of data that are at most b in absolute value, the errors that L2ConsistentCovTO compares are between 0 and 2 p b^2. With fair independent random numbers, and except with probability 2 G exp(-numSamples t^2/(2 p^2 b^4)), G being the number of grid points, the mean error of the threshold returned over all divisions of the rows is less than 2t above that of every other threshold of the grid, under every schedule of the workers. So 2 p^2 b^4/t^2 log(2 G/delta) samples suffice for this to hold with probability at least 1 - delta.", "quantifier": "all matrices, steps, numbers of samples, all t, delta > 0, all schedules", "why_tests_cant": "A probability over the random partitions, for all data and schedules; a test sees a few partitions.", "anchors": ["featselect/thresholdCov.go:L2ConsistentCovTO", "featselect/thresholdCov.go:CalculateFNormDiff", "featselect/thresholdCov.go:RandomRowSplit"]}
{"id": "C163", "title": "How long LARS paths can be", "statement": "For lambMin >= 0 a path that LassoLars returns has at most (floor(L/tol) + 1)(p + 1) nodes, with p features, L the largest absolute correlation of a feature with the target and tol the tolerance of the code; this holds for every estimator. If the estimator solves the normal equations and no iteration is degenerate (no ties between features, no dependent active features, no times within the tolerance), a path has at most (3^p - 1)/2 nodes, whatever the data, and a selection of k features occurs in at most 2^(k-1) of them; so a feature is selected alone in at most one node. For two features, of different lengths, there are data for which both bounds are attained.", "quantifier": "all data, all lambMin >= 0, all estimators", "why_tests_cant": "A bound for all data; a test sees the length of a few paths, and long paths need special data.", "anchors": ["featselect/lasso_lars.go:LassoLars", "featselect/lasso_lars.go:maxJoinTime", "featselect/lasso_lars.go:maxCrossTime"]}
{"id": "C164", "title": "Thresholding finds sparse covariance matrices", "statement": "If all empirical covariances are within e of a matrix S and the threshold t exceeds e, the matrix that SparseThresholded.Get returns is 0 wherever S is 0, has the sign of S wherever S is at least t + e in absolute value, and is within t + e of S everywhere. If S is symmetric with at most s non-zero entries per row, its quadratic form differs from that of S by at most s(t + e) times the squared length, so it is positive definite when that of S exceeds this everywhere, and the squared error of all entries together is at most p s (t + e)^2. For n rows drawn at random from a population with p columns and values of at most b this holds with S the covariances of the population, except with probability 2 p^2 exp(-n e^2/(2 b^4)); 2 b^4/e^2 log(2 p^2/delta) rows suffice for probability 1 - delta.", "quantifier": "all matrices, thresholds t > e, populations, numbers of rows, all delta > 0", "why_tests_cant": "A statement about all data near a covariance matrix, and a probability over random rows; a test sees a few samples.", "anchors": ["featselect/covarianceMatrix.go:Get", "featselect/thresholdCov.go:Apply"]}
{"id": "C165", "title": "How accurate converged elastic nets are", "statement": "If LassoCrdDesc with an ElasticNet of weight Lamb > 0 reports convergence, no vector with the same coefficients of the first and of the unselected features has an elastic net objective that is smaller than that of the result by more than the sum over the features of (tol m (sum_k |C_jk| + Lamb))^2 / (2 Lamb), C being the covariance matrix and m the size of a coefficient, and every such vector whose objective is not larger is within twice the root of this sum of squares over Lamb of the result; in particular the best one, and there is at most one best one. The same holds for CLasso, unless an iteration has non-zero coefficients with a sum of squares below 1e-10.", "quantifier": "all data without zero columns (the first excepted), all regularisations, weights, tolerances and iteration limits, all competing vectors", "why_tests_cant": "A bound for all competing vectors and all data; a test compares with a few.", "anchors": ["featselect/lassoCrdDesc.go:LassoCrdDesc", "featselect/lassoCorrections.go:Deriv"]}
{"id": "C166", "title": "Elastic nets change little with the target values", "statement": "If the target values or the regularisation are changed, the best coefficients of an elastic net of weight Lamb > 0 move by at most w / Lamb, w being the length of the vector with the components |x_j^T (y' - y)| / n + |lambda' - lambda|. The same holds for what LassoCrdDesc with this ElasticNet returns when it reports convergence for both problems and the two results have the same coefficients for all features that one of them does not select (for example zero), if the slack tol m (sum_k |C_jk| + Lamb) of each run, m being the size of a coefficient, is added to the components.", "quantifier": "all data, pairs of targets, regularisations, weights and tolerances; for the runs data without zero columns (the first excepted), all iteration limits", "why_tests_cant": "A bound for all changes of the target values; a test tries a few.", "anchors": ["featselect/lassoCrdDesc.go:LassoCrdDesc", "featselect/lassoCorrections.go:Deriv"]}
{"id": "C167", "title": "Cohen's kappa measures the agreement beyond chance", "statement": "For two selections of given sizes, not both empty and not both full, CohenKappa is larger exactly when more features are in common. If one of them is drawn at random from all selections of its size, kappa has mean zero and a variance of at most 1 / (n - 1), n being the number of features, so that at most a fraction 1 / ((n - 1) e^2) of the selections has a kappa of e or more with a given one.", "quantifier": "all numbers of features, all selections without repetitions, all sizes, all e > 0", "why_tests_cant": "An average over all selections of a size, which are too many to enumerate, and for every number of features.", "anchors": ["featselect/util.go:CohenKappa"]}
{"id": "C168", "title": "Fits of nearly singular data are nearly optimal", "statement": "Whatever the singular values of the matrix are, also those that Fit discards: the norm of the residuals of the coefficients b that Fit returns is at most that of any coefficients c plus 1e-6 times the norm of c, and the norm of b is at most that of c plus 1e6 times the norm of the residuals of c. A response that is exactly X c is reproduced up to 1e-6 times the norm of c with coefficients that are not longer than c. So the root of the residual sum of squares of a model is never larger than that of a model with fewer features by more than 1e-6 times the norm of the coefficients of the latter.", "quantifier": "all matrices with their singular value decomposition, all targets, all competing coefficients, all pairs of nested models", "why_tests_cant": "A bound for all competing coefficients and for arbitrarily ill-conditioned data.", "anchors": ["featselect/fit.go:Fit", "featselect/fit.go:Rss"]}
{"id": "C169", "title": "SelectModel on nearly singular data is nearly optimal", "statement": "Let the criterion values be below 1e100 in size, no model fit exactly (nor, with as many columns as rows, have a residual sum of squares below 1e-12), and the search start from the empty model or have fewer columns than rows. The singular values may be anything, so that Fit may discard some. If every model has least-squares coefficients that are at most 1e6 tau times as long as their residuals, then, on return without overflow message and torn read, the AICc of the coefficients stored with the model reported first exceeds that of the exact least-squares fit of every model different from the root by at most 2 n log(1 + tau), n the number of rows.", "quantifier": "all data, singular value decompositions, tau > 0, starting models and schedules", "why_tests_cant": "A bound for all data and all schedules of concurrent workers when bounds and scores come from truncated fits.", "anchors": ["featselect/optimize.go:SelectModel", "featselect/fit.go:Fit", "featselect/criteria.go:BoundsAICC"]}
{"id": "C170", "title": "The order of the rows and the decomposition found do not matter", "statement": "Fit gives the same coefficients and Rss the same sum for any two data sets whose columns and target have the same sums of squares and products over the rows, for example if the rows are in another order, whichever singular value decompositions are found and also if singular values are discarded. If the numbers of rows are equal, SelectModel (state by state, for every schedule), BruteForceSelect, SelectModelSA (with the same random numbers), Omp, LassoLars (there also for different numbers of rows) and LassoCrdDesc with the empirical covariance matrix and any correction do the same on both.", "quantifier": "all pairs of data sets with the same sums, all singular value decompositions, all options, schedules and random numbers", "why_tests_cant": "Quantifies over all reorderings of all data sets and over all decompositions a library may find; tests use one.", "anchors": ["featselect/fit.go:Fit", "featselect/optimize.go:SelectModel", "featselect/simmulatedAnnealing.go:SelectModelSA", "featselect/orthogonalMatchingPursuit.go:Omp", "featselect/lasso_lars.go:LassoLars", "featselect/lassoCrdDesc.go:LassoCrdDesc"]}
{"id": "C171", "title": "The order and signs of the features do not matter, also when singular values are discarded", "statement": "If rows and columns are put in another order, some columns are multiplied by -1 and the response is multiplied by a constant other than 0, Fit gives every nonempty model the same coefficients up to order, signs and unit, and Rss changes by the square of the factor, whichever singular value decompositions are found and also if columns are dependent and singular values are discarded. If no model fits exactly, BruteForceSelect lists the corresponding models with these coefficients and with scores that all differ by the same number.", "quantifier": "all data sets, permutations of rows and columns, signs of columns, units of the response and decompositions", "why_tests_cant": "Quantifies over all reorderings of all data sets and over all decompositions a library may find; tests use one.", "anchors": ["featselect/fit.go:Fit", "featselect/fit.go:Rss", "featselect/optimize.go:BruteForceSelect"]}
{"id": "C172", "title": "Small changes of the response do not change a clear choice of the model", "statement": "If the response changes by a vector of length at most eps, the square root of the Rss of every model changes by at most eps, also if singular values are discarded. If the Rss of every model is at least rho^2 with rho > eps, every score of BruteForceSelect changes by at most 2*n*eps/(rho-eps) for n rows; if the first model leads all others by more than twice that, BruteForceSelect puts it first for the changed response, too, and so does SelectModel for data with more rows than columns and exact fits, started with an empty list (MaxItems at least 2) and the default root model, if it returns without overflow message and without an interleaved first insertion between BestScore() and Len() in CreateChild.", "quantifier": "all matrices, responses, changes of the response, decompositions, options and goroutine schedules", "why_tests_cant": "Quantifies over all changes of all responses and over all schedules.", "anchors": ["featselect/fit.go:Fit", "featselect/fit.go:Rss", "featselect/criteria.go:Aicc", "featselect/optimize.go:BruteForceSelect", "featselect/optimize.go:SelectModel"]}
{"id": "C173", "title": "Stricter criteria choose smaller models", "statement": "Among any candidates with positive residual sums of squares, a candidate with the smallest Bic (at least 8 data points) or the smallest Aicc has at most as many features as one with the smallest Aic, and fits no better. Among candidates with at most K features, 2*K < n, the same holds for Bic compared to Aicc if log n > 2 + 8*(2*K+1)/(n-1). In particular the first model of BruteForceSelect, and the best ones of SelectModel (more rows than columns, empty list and default root model, MaxItems at least 2, no overflow message, no interleaved first insertion), have at most as many features as any model with the smallest Aic, and for a path whose selections are ascending the best node by GetCriteria with Bic has at most as many as the best one by GetCriteria with Aicc.", "quantifier": "all numbers of data points and features, candidates, data sets and paths", "why_tests_cant": "Quantifies over all sets of candidate models and all data sets; tests compare single values.", "anchors": ["featselect/criteria.go:Aic", "featselect/criteria.go:Aicc", "featselect/criteria.go:Bic", "featselect/optimize.go:BruteForceSelect", "featselect/optimize.go:SelectModel", "featselect/lassoPlot.go:GetCriteria"]}
{"id": "C174", "title": "Orthogonal matching pursuit does not depend on the order and signs of the features", "statement": "If Omp reaches its tolerance and in every iteration one feature has a larger correlation with the residuals than all others (no zero columns), then on the data with rows and columns in another order, some columns multiplied by -1 and the response and the tolerance in another unit, Omp selects the same features in the same sequence, and Coeff holds the same coefficients up to order, signs and unit, whichever singular value decompositions are found and also if singular values are discarded.", "quantifier": "all data sets without zero columns, permutations of rows and columns, signs of columns, units of the response, tolerances and decompositions", "why_tests_cant": "Quantifies over all reorderings of all data sets and over all decompositions a library may find; tests use one.", "anchors": ["featselect/orthogonalMatchingPursuit.go:Omp", "featselect/fit.go:Fit"]}
{"id": "C175", "title": "Averages of models are stable", "statement": "Averaging the models of a lasso path with WeightsFromAIC and WeightedAveragedCoeff is insensitive to bad models and to small changes of the criteria. Leaving out m models whose criteria exceed that of a kept model by at least D changes each averaged coefficient, and each prediction of the average, by at most 2*B*m*exp(-D), where B bounds the absolute value of the coefficient or prediction in the single models. If no criterion changes by more than d, they change by at most B*(exp(2*d)-1).", "quantifier": "all data, criteria, paths over existing features, and models left out", "why_tests_cant": "Bounds over all paths and criteria that involve exponentials; tests compare single averages.", "anchors": ["featselect/util.go:WeightsFromAIC", "featselect/util.go:WeightedAveragedCoeff", "featselect/lasso_lars.go:LassoNodesSlice2SparsCoeff"]}
{"id": "C176", "title": "Repeated rows lead to larger models", "statement": "If every row of the data occurs k times (k at least 2) instead of once, for example because files were joined twice, then the fit of every model has the same predictions, the same coefficients if the columns are independent, and k times the residual sum of squares. Aic, Aicc (models with fewer features than rows minus 1) and Bic (at least 3 rows) then choose a model with at least as many features, which fits the data at least as well; in particular the first model of BruteForceSelect, and the best ones of SelectModel (empty list and default root model, MaxItems at least 2, no overflow message, no interleaved first insertion), do not have fewer features than without the repetition.", "quantifier": "all data sets, numbers of repetitions, sets of candidate models, decompositions, options and schedules", "why_tests_cant": "An inequality between searches on two data sets, for all data sets; tests run one.", "anchors": ["featselect/fit.go:Fit", "featselect/criteria.go:Aic", "featselect/criteria.go:Aicc", "featselect/criteria.go:Bic", "featselect/optimize.go:BruteForceSelect", "featselect/optimize.go:SelectModel"]}
{"id": "C177", "title": "Columns that the best model does not use can be left out", "statement": "On some of the columns of the data every model over these columns has the same coefficients and residual sum of squares as with the other columns present, whichever singular value decompositions are found and also if singular values are discarded. The best score that BruteForceSelect finds, or SelectModel (fewer columns than rows, empty list and default root model, MaxItems at least 2, no overflow message, no interleaved first insertion, fits not truncated), is never higher than with all columns. It is the same if the best model for all columns uses only the columns kept, and then, if no other model has that score, the best model has the same features and coefficients.", "quantifier": "all data sets, ascending choices of columns, decompositions, options and schedules", "why_tests_cant": "Compares searches on all data sets with those on all their subsets of columns; tests run single searches.", "anchors": ["featselect/fit.go:Fit", "featselect/optimize.go:BruteForceSelect", "featselect/optimize.go:SelectModel", "featselect/criteria.go:Aicc"]}
{"id": "C178", "title": "Columns that the lasso does not use can be left out", "statement": "A solution of the lasso problem whose coefficients are 0 outside of some columns is, restricted to these columns, a solution of the lasso problem on the data with only these columns. So if LassoLars is run on all columns and on some of them, in both cases without degenerate iterations, then at every regularisation that is on both paths and where the path on all columns uses only columns that were kept, the two solutions give the same predictions; for a positive regularisation they have the same sum of absolute coefficients, and if the columns kept are linearly independent they have the same coefficients.", "quantifier": "all data sets, ascending choices of columns, regularisations and points of the paths", "why_tests_cant": "Compares paths on all data sets with those on all their subsets of columns; tests run single paths.", "anchors": ["featselect/lasso_lars.go:LassoLars"]}
{"id": "C179", "title": "Columns that orthogonal matching pursuit does not choose can be left out", "statement": "If Omp reaches its tolerance on data without a column of zeros, then on any of the columns that include all columns it has chosen it does the same: Order lists the same features in the same order and Coeff has the same coefficients, with the numbers that the features have among the columns kept. This also holds if several columns are equally correlated with the residuals or singular values are discarded, and whichever singular value decompositions are found.", "quantifier": "all data sets, tolerances, ascending choices of columns and decompositions", "why_tests_cant": "Compares runs on all data sets with those on all their subsets of columns; tests run single data sets.", "anchors": ["featselect/orthogonalMatchingPursuit.go:Omp", "featselect/fit.go:Fit", "featselect/orthogonalMatchingPursuit.go:Argmax"]}
{"id": "C180", "title": "Repeated rows do not change orthogonal matching pursuit", "statement": "On the data in which every row occurs k times, Omp with the same tolerance returns the same Order and the same predictions as on the data themselves, and the same Coeff if the columns are linearly independent; also if several columns are equally correlated with the residuals and if the tolerance is not reached (fits of the data not truncated).", "quantifier": "all data sets, numbers of repetitions and tolerances", "why_tests_cant": "Compares runs on all data sets with those on all their repetitions; tests run single data sets.", "anchors": ["featselect/orthogonalMatchingPursuit.go:Omp", "featselect/fit.go:Fit", "featselect/orthogonalMatchingPursuit.go:Argmax"]}
{"id": "C181", "title": "Repeated rows only rescale the lasso", "statement": "On the data in which every row occurs k times the objective of LassoCrdDesc is that of the data for every regularisation, and the solutions of the problem of LassoLars for k times a regularisation are those of the data for this regularisation. So if LassoLars is run on both without degenerate iterations, the points of the two paths at lambda and k*lambda have the same predictions, for positive lambda the same sum of absolute coefficients, and the same coefficients if the columns are linearly independent.", "quantifier": "all data sets, numbers of repetitions, regularisations, coefficients and points of the paths", "why_tests_cant": "Compares paths on all data sets with those on all their repetitions; tests run single paths.", "anchors": ["featselect/lasso_lars.go:LassoLars", "featselect/lassoCrdDesc.go:LassoCrdDesc"]}
{"id": "C182", "title": "A smaller tolerance continues orthogonal matching pursuit", "statement": "Omp with a smaller tolerance lists in Order first the features that it lists for a larger tolerance, in the same order, and then possibly further ones. If the RMSE of the result for the larger tolerance is already below the smaller one, both results are equal. If fits are not truncated, the RMSE for the smaller tolerance is never larger than for the larger one.", "quantifier": "all data sets and pairs of tolerances", "why_tests_cant": "Relates the results for all pairs of tolerances on all data sets; tests use single tolerances.", "anchors": ["featselect/orthogonalMatchingPursuit.go:Omp"]}
{"id": "C183", "title": "A smaller lambMin continues the LARS path", "statement": "If LassoLars returns a path for some lambMin, then for every larger lambMin it also returns (it does not panic), and the path is exactly the first part of the other one: the nodes whose regularisation exceeds the larger lambMin, with the same coefficients and selections.", "quantifier": "all data sets, estimators and pairs of values of lambMin", "why_tests_cant": "Relates the results for all pairs of lambMin on all data sets; tests use single values.", "anchors": ["featselect/lasso_lars.go:LassoLars"]}
