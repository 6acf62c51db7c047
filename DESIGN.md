# Formal model of juangamella/ut-lvce in Lean 4

## 1. Layout

* `lean/Verif/Model/*.lean` – the model: one Lean definition per Python function, each citing `file:lines`.
* `lean/Verif/Spec/*.lean` – small independent specifications (graphs as relations, Markov equivalence, Gaussian likelihood). No model helper is
  used there. A few specifications needed by one file only stand at its head, in the namespace `Verif.Spec`.
* `lean/Verif/Proof/*.lean` – helper lemmas.
* `lean/Verif/Props/*.lean` – the property theorems, named `Cnn_...`, with cases that meet their hypotheses beside them.
* `properties.jsonl` – the properties in English. `MANIFEST.json` – property → theorem names.
* `seeded/LOG.jsonl` – wrong programs that were tried against the theorems; `seeded/README.md` explains the fields.

## 2. Trusted base

* Lean's kernel (4.33.0) and the statements of Mathlib's definitions (graph-free: matrices, determinants, derivatives, measures).
* Axioms. No axioms are added; there is no `sorry`, `native_decide` or `bv_decide`. Of the 780 theorems in MANIFEST.json all depend on
  `propext, Classical.choice, Quot.sound` only, except these, which need fewer (output of `#print axioms`):

* `C04_decomposition`: propext
* `C04_directed_edges`: propext, Quot.sound
* `C04_edge_weights`: propext, Quot.sound
* `C04_supports`: propext
* `C04_undirected_edges`: propext, Quot.sound
* `C110_shape`: propext
* `C19_extensions_equivalent`: none
* `C31_cartesian`: propext, Quot.sound
* `C31_cartesian_bytes`: propext, Quot.sound
* `C31_cartesian_lex`: propext, Quot.sound
* `C31_cartesian_raises`: propext, Quot.sound
* `C40_assign_B_stale`: propext, Quot.sound
* `C40_frame`: propext, Quot.sound
* `C40_isolated_from_old`: propext, Quot.sound
* `C40_old_isolated`: propext, Quot.sound
* `C84_hit_shared`: propext, Quot.sound

* The reading of the Python code. Nothing connects the model to the source mechanically: it was transcribed by hand and never run. The citations
  are there for checking it. As a check of the transcription, numbers that the repository states about itself follow from the model: literals of
  the unit tests (`Props/SuiteLiterals.lean`) and values printed in docstrings of `model.py` and `generators.py` (`Props/DocLiterals.lean`).
  These are tests of the reading, not property theorems.
* The behaviour assumed of numpy, scipy, cvxpy and ges, listed in section 4.

## 3. Modelling conventions

* Adjacency and PDAG matrices are `Adj p := Fin p → Fin p → Int`. The graph functions test entries for zero, and some of them test the sign of sums
  of entries (`topological_ordering`). For matrices of non-negative doubles the results are those for
  the integer matrix of their non-zero entries (C141, `Model/FloatGraph.lean`, which also has NaN and rounding). Shape errors are impossible by typing, except
  where a property is about them (C34, C67).
* Nodes are elements of `Fin p`. `Model/IntNodes.lean`, `Model/IntRules.lean` and `Model/IntPaths.lean` have functions of `utils.py` for nodes given as any integers (C159, C160), `Model/IntTargets.lean` has `score_dag` for such targets (C161).
* Exceptions are values, `Except Err α`.
* Loops. A `while` loop over graphs carries fuel, and running out gives `Err.diverge`; the theorems show that this does not happen. Loops without an
  evident bound use `runLoop`, the limit of all finite iterations, with `Err.diverge` exactly if the loop never stops. So termination and
  non-termination are both provable statements.
* Iterating over a Python `set` uses an arbitrary enumeration `SetIter`, over which the theorems quantify.
* Random draws are parameters. What numpy documents about them (permutation, choice without replacement, intervals, for C82 the uniform
  distribution) is a hypothesis or a field of `Rng`.
* Real parameters (B, gamma, omegas, psis, covariances) are exact reals. `Flt := Option ℝ` adds NaN where the code compares scores.
  Rounding, overflow and infinities are outside the model unless a definition says otherwise (`Model/FloatSplit.lean` for `split_data`, `Model/FloatGraph.lean` and `Model/FloatPdag.lean` for graphs of doubles, `Model/Int64.lean` for sums of 64-bit integers in `is_dag` and `dag_to_cpdag`, `Model/Rounded.lean` for errors in the test scores that `_fit` compares).
* Arrays are values, except in `Model/Heap.lean`, where references and copies are explicit (C40).

## 4. Assumptions on libraries

| library call | assumption |
|---|---|
| `np.linalg.inv`, `det`, `np.trace` | exact; `inv` raises `LinAlgError` exactly for singular matrices |
| `scipy.linalg.sqrtm` | arbitrary function with real values; C77 and C78 assume a symmetric square root of positive semi-definite matrices (`GoodSqrt`) |
| `cvxpy` | arbitrary function; C71 and C72 assume that it returns a feasible point, C77 a nearly optimal one (`CvxOptimal`) |
| `np.linalg.svd` | orthonormal columns with the right span (C75); `LinAlgError` for matrices with infinities or NaN (C147); other failures to converge are not modelled |
| `pos[order] = range(len(order))` in `sort`, with repeated nodes | assigned in order, the last value stays, as numpy documents (C149) |
| `@` with infinite entries | zero times infinity is NaN, or zero factors are skipped: both are covered (C147) |
| `rng.uniform` | draws of the unit interval, scaled; `high < low` is refused or accepted, depending on the version: both are covered (C148) |
| `np.linalg.svd` in C53 and C66 | arbitrary function; what is needed of it is a hypothesis of the theorems |
| `np.argsort` | arbitrary function; what is needed of it is a hypothesis of the theorems |
| `np.random` inside the solvers for B | the initial B is a parameter; C45 for `grad` needs that in every draw some entry exceeds 1e-10 in absolute value (`GoodDraws`) |
| `np.cov` | arbitrary function in most theorems; the function itself for at least two variables, as in numpy 1, in C97 and C98 (`Model/Cov.lean`). For one variable numpy returns a 0-dimensional array; its consequence is C110 (`Model/Shapes.lean`) |
| `ges.fit` | arbitrary function from samples to matrices (C61) |
| `sorted` on scores | the algorithm of CPython 3.7 to 3.12 for fewer than 64 elements (first run, then binary insertion), with the comparison `tupleLt`; two NaN are different objects. For longer lists the result is the same if no score is NaN (C131) |

## 5. What is modelled

All functions of the package, as named in section 6, except:

* printing (`verbose`, `debug`) apart from `Model.__str__`, its use in `score_dag` (C130), the numbers printed by `sample_parameters` (C133), the lines printed by `_fit` and its subroutines (C135) and those printed by `score_dag`, `_solve_for_B_grad` and the gradient descents (C136, C138), and those of the graph functions (C142); lines printed before an exception (except in C142); timing and garbage collection;
* the doctests as programs (values they print that do not depend on random draws are compared in `Props/DocLiterals.lean`).

`weakestEdge` has its own transcription of `utils.argmin` for matrices; `argmin` in `Model/ArrayUtils.lean` is for all shapes.

Simplifications, also stated at the definitions:

* `generators.py`: negative sizes, seeds and numpy's checks of them are in `Model/GenArgs.lean` (C148); elsewhere sizes are natural numbers. Arguments that are not
  integers where integers are expected and infinite intervals are not modelled.
* The code uses `np.Inf` (`main.py:695`, `score.py:354,866-867`), a name that numpy 2.0 removed; the model is of the code under numpy 1.
* `main.py`: the covariances of the folds are real matrices, except in `Model/FitNan.lean`; a candidate list may be empty.
  The arguments `ges_env`, `ges_phases` and `ges_lambdas` of `_fit` are in `Model/Ges.lean` (C139); elsewhere they have their defaults, the only values
  the public functions use.
* `model.py` metrics: zero variances (division by zero) are in `Model/MetricsZero.lean` (C147) and excluded by hypotheses elsewhere; the sign of a zero is not modelled.
* `score.py`: arrays of integers as `gamma` or variances, whose gradients numpy truncates, are modelled in `Model/IntArrays.lean` only (C105, where
  floats are shown to give the same results as the other modules); overflow of integer parameters is not modelled.
* `_gradient_descent`: the smallest step `1e-50` is a parameter; C80 holds for all values below a bound that depends on the model.

## 6. Per property

"violated" in a title means that the documented behaviour is false of the code. For these the actual behaviour is proved for all inputs, and the
negation of the documented one with a witness.

| property | status | model | how it is proved |
|---|---|---|---|
| C01 is_dag decides acyclicity | proved | `isDag`, `topologicalOrdering` (Kahn loop over a copied matrix) | loop invariant; a finite graph in which every node has a parent has a cycle |
| C02 topological_ordering is a topological order | proved | `topologicalOrdering` | loop invariant on the nodes already removed |
| C03 Node relations partition adjacency | proved | `pa`, `ch`, `neighbors`, `adj`, `na` | extensionality |
| C04 Directed/undirected decomposition | proved | `onlyDirected`, `onlyUndirected`, `undirectedEdges`, `directedEdges`, `edgeWeights` | case analysis on the two entries of a pair |
| C05 vstructures is exact | proved | `vstructures` | membership in the loops over pairs of parents |
| C06 is_clique and is_complete decide pairwise adjacency | proved | `isClique`, `isComplete` | counting of non-zero entries |
| C07 semi_directed_paths enumerates exactly the simple semi-directed paths | proved | `semiDirectedPaths` (stack machine) | the stack machine equals a recursive enumeration; induction on the unused nodes |
| C08 separates is exact | proved | `separates` | from C07 |
| C09 chain_component is the undirected connected component | proved | `chainComponent` | invariant visited ⊆ component, closure at exit |
| C10 induced_subgraph keeps exactly the edges inside S | proved | `inducedSubgraph` | extensionality |
| C11 moral_graph marries parents | proved | `moralGraph`, `degrees`, `skeleton` | case analysis |
| C12 is_consistent_extension is exact | proved | `isConsistentExtension` | equality of skeleton and v-structures against the specification |
| C13 pdag_to_dag returns a consistent extension | proved | `pdagToDag` (shrinking matrix, index list) | induction on the number of nodes |
| C14 pdag_to_dag fails only when no extension exists | proved | `pdagToDag` | a sink of an extension is a candidate; the restriction of an extension is an extension |
| C15 order_edges produces a valid total order | proved | `orderEdges` | measure and bijection invariant |
| C16 Edges marked compelled are compelled | proved | `labelEdges`, `dagToCpdag` | soundness of each labelling step |
| C17 dag_to_cpdag is the essential graph | proved | `dagToCpdag` | chain graph characterisation of the labels; chordality (Dirac) to reverse an undirected edge |
| C18 CPDAG identifies the equivalence class | proved | `dagToCpdag` | from C17 |
| C19 pdag_to_cpdag completes the PDAG | proved | `pdagToCpdag` | from C13, C14, C17 |
| C20 maximally_orient is sound and closed | proved | `rule1`–`rule4`, `maximallyOrient` | soundness of each rule, closure at exit, number of undirected edges decreases |
| C21 dag_to_icpdag is the interventional essential graph | proved | `dagToIcpdag` | abstract Meek closure over orientation time; chain graph property of the closure |
| C22 Boundary target sets of dag_to_icpdag | proved | `dagToIcpdag` | from C21 |
| C23 all_dags enumerates the consistent extensions | proved | `allDags`, `cartesian` | bijection between orientations and extensions |
| C24 mec is the Markov equivalence class | proved | `mec` | from C17, C23 |
| C25 Chain-graph shortcut agrees with the general algorithm | proved | `chainGraphMEC`, `isChainGraph` | direct description of the class of a chain |
| C26 imec is the interventional equivalence class | proved | `imec`, `chainGraphIMEC` | from C21, C23, C25 |
| C27 pdag_to_icpdag | proved | `pdagToIcpdag` | from C13, C21 |
| C28 add_edges adds exactly the requested edges | proved | `addEdges` with an arbitrary shuffle | a pair that is not adjacent can be oriented in one direction |
| C29 remove_edges removes exactly the requested edges | proved | `removeEdges` with an arbitrary choice | distinct positions |
| C30 Supergraph tests | proved | `isSupergraph`, `hasSubgraph`, `hasSupergraph` | extensionality |
| C31 sort/subsets/cartesian/member/all_but list utilities | proved | `sortPlain`, `pySorted`, `subsets`, `cartesian`, `member`, `allBut`, `sortedTuple` | induction on lists; reduction to eight bits (boundary) |
| C32 split_data folds are disjoint parts of each sample | proved | `splitData`, `pySlice`, `pyRound` | permutations; monotone cut points |
| C33 split_data covers all the data (violated) | proved | `splitData` | bound on the rounding of the cut points; a witness |
| C34 Model constructor accepts exactly valid parameters | proved | `initModel` on untyped arrays, `mkModel` | case analysis of the checks |
| C35 Covariances are well defined for every model | proved | `LModel.covariances`, `npInv` | I - Bᵀ is unipotent for an acyclic graph |
| C36 Covariances are symmetric positive definite | proved | `LModel.noise`, `LModel.invNoise` | congruence of positive definite matrices; witness with zero variances |
| C37 Score is the sample-size-weighted Gaussian likelihood (violated for several environments) | proved | `scoreLoop`, `LModel.score` | closed form of the loop as written; comparison with the documented sum |
| C38 Per-environment score is the Gaussian negative log-likelihood | proved | `scoreTerm` | spectral inequality tr(X) - log det X ≥ p |
| C39 sample validates n_obs | proved | `LModel.sample`, `sampleSizes`, `PyNObs` | case analysis; the draws are an oracle |
| C40 copy and constructor isolate state | proved | `Heap`: arrays by reference | frame lemmas for allocation |
| C41 Cache behaves as a finite map | proved | `cacheFind`, `cacheRead`, `cacheWrite` | invariant over all histories of calls |
| C42 score_dag memoisation is transparent | proved | `scoreDag` with cache | induction over the sequence of calls |
| C43 init_model breaks memoisation (violated transparency) | proved | `scoreDag` with `init_model` | evaluation of two calls for every fitter |
| C44 score_dag iteration bounds | proved | `alternate`, `altStep` | invariant on the two counters |
| C45 Fitted B respects the DAG | proved | the three solvers for B, `scoreDag` | support invariant of the masks |
| C46 Variances of non-targets are equal across environments | proved | `restGrad`, `solveForRest`, `initializeOmegas` | the gradient is averaged over environments outside I |
| C47 Fitted variances stay strictly inside their bounds | proved | `gradientDescent`, `restBounds` | invariant of the accepted points |
| C48 psi_fixed makes latent variances equal across environments | proved | `restGrad`, `initializePsis` | the gradient is averaged over environments |
| C49 psi_max <= 1 is unusable | proved | `solveForRest`, `initializePsis` | start outside the bounds |
| C50 Gradient descent never worsens the loss | proved | `gradientDescent`, `isWithinBounds` | invariant of accepted points |
| C51 Gradient descent terminates | proved | `gradientDescent` | well-founded order: halvings before acceptance, then decrease of the loss |
| C52 Returned score/model coherence (stale I_B) | proved | `scoreDag`, `LModel.copy` | the stored I - Bᵀ is that of an earlier iteration; witness |
| C53 Initialisation respects the DAG and constraints | proved | `initializeB`, `initializeOmegas`, `initializeGamma`, `initializePsis`, `regress` | normal equations and least squares over reals; composition for the whole initial model |
| C54 _best_scoring returns the first minimum | proved | `bestScoring`, `npArgmin` | induction on the list |
| C55 Graph pruning explores a nested chain of subgraphs | proved | `pruneGraph`, `pruneGraphs`, `weakestEdge` | invariant over the loop |
| C56 Graph pruning can loop forever (violated termination) | proved | `pruneGraph` | the loop removes no edge when all weights are zero: fixed point |
| C57 Target pruning explores nested target sets | proved | `pruneI` | invariant over the loop over the variables sorted by variance |
| C58 Latent number selection | proved | `latentLoop`, `sortedM`, `fitMain` | invariant of the dictionary; first of a stable sort |
| C59 equivalence_class output is coherent | proved | `equivalenceClass`, `targetPhase` | composition with C21, C57 |
| C60 random_state of the public API is ignored (violated) | proved | `equivalenceClass` | the argument does not occur; another value would matter |
| C61 GES wrapper equals equivalence_class on GES output | proved | `fitGes`, `equivalenceClassGes` | composition; GES is an oracle |
| C62 Generated models are valid | proved | `sampleParameters` | case analysis; draws as parameters |
| C63 Generated non-targets are constant and targets differ as documented (interval violated) | proved | `genOmegas`, `genPsis` | closed form of the accumulating loops; witnesses |
| C64 intervention_targets | proved | `interventionTargets` | choice without repetition; case analysis of the range check |
| C65 Random graphs are DAGs | proved | `dagAvgDeg`, `randomGraphModel`, `chainGraphModel` | the permutation gives a topological order |
| C66 Scree selection range | proved | `screeSelection`, `screeLik` | first maximum of the profile likelihood |
| C67 Score constructor validation | proved | `initScore` on untyped data | case analysis |
| C68 is_stable_set is unusable (violated) | proved | `isStableSet` | evaluation (undefined name in the code) |
| C69 Negative weights break is_dag (boundary of C01) | proved | `isDag` on negative weights | witness |
| C70 Factorization of a graph | proved | `toFactorization` | extensionality |
| C71 score_dag returns | proved | `scoreDag` | every step returns: invertibility, positive definiteness, C51 |
| C72 equivalence_class returns | proved | `fitMain`, `equivalenceClass` | from C71 and termination of the pruning loops |
| C73 Generators ignore random_state, and obs for chains (violated) | proved | `chainGraphModel`, `randomGraphModel` | which arguments occur |
| C74 Intervention strength measures change of variance | proved | `LModel.interventionStrength` | bounds on the variance of positive numbers |
| C75 Scaled latent incoherence | proved | `LModel.scaledLatentIncoherence` | projection onto the column space |
| C76 Solver gradients are those of the documented score, not of the loss compared (violated for several environments) | proved | `gammaGrad`, `restGrad`, losses | derivative of the log determinant and of the inverse |
| C77 The convex solver optimises B | proved | `solveForBCvx` | Kronecker and vectorisation identities; cvxpy oracle |
| C78 The gradient solver minimises the unweighted objective (violated: sample sizes ignored) | proved | `solveForBGrad` | the fixed point solves the normal equations; witness for unequal sizes |
| C79 The adaptive solver does not worsen the score, but can run forever (termination violated) | proved | `solveForBAdaptive` | monotone score; two-cycle of the sign |
| C80 Gradient descent makes strict progress when it can | proved | `gradientDescent` | derivative along the gradient; a short step decreases the loss |
| C81 Default numbers of latents, and no leakage from the third fold | proved | `fitMain`, `latentNumbers` | relational argument over two runs |
| C82 The random graphs have expected average degree k | proved | `dagAvgDeg` | linearity of the expectation |
| C83 Array utilities: argmin, argmax, normalized_var, delete | proved | `argmin`, `argmax`, `normalizedVar`, `delete` | row-major numbering is lexicographic; variance decomposition; induction on lists |
| C84 Sharing between the cache and the returned models (isolation violated for cache hits) | proved | `scoreDagRef`, `Heap` | frame lemma of C40 |
| C85 The members of the returned class are indistinguishable | proved | `LModel.covariances`, `LModel.score`, `equivalenceClass` | induction over covered edge reversals; each reversal is compensated by a change of weights, latent effects and two noise variances |
| C86 The alternating optimisation does not make the parameters worse (one environment) | proved | `altBody`, `alternate`, `codeSolvers`, `fitDag` | composition of C77 with the descent property C50 of the two gradient steps; induction over the iterations; strict version from C80 |
| C87 When the adaptive solver terminates and how good its result is (one environment) | proved | `adaptStep`, `solveForBAdaptive` | the free entries follow a linear iteration in the eigenbasis of the curvature; downward induction over the learning rates; an explicit oscillating start for the converse |
| C88 The score identifies the covariances | proved | `LModel.score`, `LModel.covariances`, `testScores`, `bestScoring` | termwise Gaussian inequality `gaussNLL_ge` with the positive weights of C37; `score_transfer` of C85 for the class; first minimum (C54) for the selection |
| C89 The history returned by _fit describes the run | proved | `latentLoopH`, `makeHistory`, `fitMainH` | simulation: forgetting the stored scores gives `fitMain`; invariants of the loop, of sorting and of the cache |
| C90 The models compared in a selection phase are not scored alike | proved | `scoreDag`, `pruneGraphs`, `pruneI`, `fitMain`, `codeFit` | invariant of the cache: during the graph phase all entries have all variables as targets, during the target phase all entries contain the current set; explicit runs from the example of C52 |
| C91 Larger models never fit worse; complete graphs fit what does not change | proved | `mkModel`, `LModel.noise`, `LModel.covariances`, `LModel.score`, `regressAll` | a latent without effects and zero weights leave the noise covariance and `I - B` unchanged; for complete graphs the normal equations make all residuals uncorrelated (parents of parents are parents), then uniqueness in C35 and the bound of C88 |
| C92 Numbering and scale of the latents are not identified | proved | `mkModel`, `LModel.noise`, `LModel.score` | the noise covariance is a sum over latents: reindex and cancel `c²` |
| C93 The names of the variables do not matter | proved | `isDag`, `dagToCpdag`, `dagToIcpdag`, `pdagToCpdag`, `maximallyOrient`, `mec`, `imec`, `LModel` | the specifications are invariant under renaming, and by the exactness theorems (C01, C17, C19, C20, C21, C24, C26, C35, C37) they determine the results |
| C94 The order of the environments does not matter (violated) | proved | `LModel.score`, `testScores`, `bestScoring` | formula of C37 for both orders; explicit models with one variable |
| C95 Ties are decided for all targets and the first candidate (violated with exact data) | proved | `fitMain`, `targetPhase`, `pruneI`, `pruneGraphs`, `bestScoring` | first minimum along the chain of C57; `Spec.ExactFit` with the nesting of C91; explicit run for the violation |
| C96 Units of measurement (violated) | proved | `LModel.score`, `mkModel`, `weakestEdge`, `pruneStep`, `varEnv`, `pruneI` | converted parameters satisfy the equations of C35 and C37; units `exp(t·r)` with `r` from a ranking of the DAG; units from the variances of the noise |
| C97 Sample covariances, and means of environments | proved | `npCov` (`Model/Cov.lean`), `splitData`, `fitMain`, `equivalenceClass` | quadratic form; dimension count for singularity; the permutation of `shuffle` commutes with shifts; decomposition of the pooled sum of products |
| C98 Test folds that are too small | proved | `npCovF`, `fitMainF` and its parts (`Model/FitNan.lean`) | induction over environments, candidates and numbers of latents with NaN scores; the conditions of C72 for returning |
| C99 split_data in floating point (violated for decimal ratios) | proved | `fl`, `fsum`, `splitSampleF`, `splitDataF` (`Model/FloatSplit.lean`) | rounding through `Int.log`; nearest double and error bounds; sums by induction; the lemmas of C32 and C33; kernel computation for the decimal ratios |
| C100 What the covariances and scores estimate | proved | `LModel.covariances`, `LModel.score`, `npCov` | bilinearity of covariances and uniqueness (C35); product measures of Gaussians; linearity of the score in the sample covariance (C37) |
| C101 Without latents the interventional class is exactly what covariances identify | proved | `LModel.covariances`, `mkModel` | the covariance of a variable with a non-descendant passes through its parents; models with weights on one edge or one collider; `C85` for the converse; square roots of positive semidefinite matrices for many latents; simultaneous diagonalisation of pairs of environments, eigenvectors and rank bounds for the number of latents at which all graphs fit; C88 for scores |
| C102 Changes of covariances between environments count the changed variables and reveal their effects | proved | `LModel.covariances`, `mkModel`, `equivalenceClass`, `codeFit` | rank is invariant under the invertible effects matrix; noise covariances differ by a diagonal matrix plus one through the latents; C46, C48 and C59 for the returned model |
| C103 On exact covariances score_dag stays at the truth, and without latents it starts there | proved | `alternate`, `codeSolvers`, `solveForBCvx`, `solveForBGrad`, `solveForGamma`, `solveForRest`, `initialModel`, `fitDag` | the score at exact covariances is the global minimum (C88), so a descent started there cannot improve strictly; the loss of the solvers for B is quadratic around the true weights; uniqueness of the normal equations on positive definite covariances |
| C104 On exact covariances equivalence_class finds a fitting candidate but declares every variable a target (targets violated) | proved | `equivalenceClass`, `fitMain`, `codeFit`, `splitData`, `npCov`, `solveForBCvx` | C103 makes the code's own fits exact (in the sense of C95, which allows the stale `I_B` of C52); the minimal score identifies the covariances (C88); ties go to the first candidate and to all targets (C95); without latents the weights are determined by the graph, so an edge with non-zero weight is needed by every fitting subgraph |
| C105 Integer arrays in init_model do not change what score_dag does (violated) | proved | `DType.store`, `gdStepT`, `gradientDescentT`, `solveForGammaT`, `solveForRestT`, `alternateT`, `fitDagT`, `codeSolversT` | simulation between the loops with and without element types for floats; derivatives (C76) below one are truncated to zero, so that every step of the descent is rejected until its size falls below the threshold; concrete one-variable runs with strict progress (C80) |
| C106 With several environments an iteration can make the parameters worse | proved | `altBody`, `codeSolvers`, `gradientDescent`, `solveForRest`, `fitDag` | descent property C50 of both gradient steps for any loss; explicit runs: the exact weight 1/2 raises the loss of the second environment for all variances; a bound on the number of steps of the descent shows that a variance that overshoots does not come back |
| C107 Pruning by thresholding keeps the relatively strong edges and targets | proved | `pruneGraph`, `pruneGraphs`, `pruneI`, `fitMain` | the kept edges follow from the maximum over the finite set of weights; the run with exact covariances is computed with C103 (every fit that contains the truth returns it) |
| C108 Repeated calls have the same result only with the convex solver (violated) | proved | `codeSolvers`, `codeFit`, `equivalenceClass`, `solveForBGrad`, `solveForBAdaptive` | the convex branch does not use the draws; the two loops are computed for all draws in a range by induction on the number of halvings; the endless run is C79, the returning one a fixed point as in C103 |
| C109 With growing samples only the last environment counts (violated) | proved | `LModel.score`, `testScores`, `bestScoring` | the limit is taken in the closed form of the score (C37); the selection follows from the limits of finitely many scores; the last statement bounds the logarithm from both sides |
| C110 Inputs of unusual shape | proved | `covShape`, `stackShape`, `unpack3`, `shapedFit`, `regressSized`, `startSized`, `equivalenceClass` | the shape is computed for all numbers of environments and variables; every run of `_fit` starts with a fit; the loop over the variables by induction |
| C111 The number of fits | proved | `ScoreObj.scoreDag`, `pruneGraphs`, `pruneI`, `latentLoop` | the set of pairs in the cache is an invariant of the loops; the chains have different graphs (C55) and the target sets strictly decrease |
| C112 With psi_fixed, variances that change differently identify the effects of the targets | proved | `LModel.covariances`, `LModel.score`, `equivalenceClass`, `codeFit` | both models diagonalise the changes of the covariances; the matrix that relates them has one non-zero entry per changing column; a permutation that respects an acyclic order is the identity; with C88 and C95 |
| C113 Small errors do not lead to a wrong graph, but the admissible error depends on the sample sizes | proved | `LModel.score`, `equivalenceClass`, `latentLoop`, `pruneGraphs`, `pruneI` | a likelihood within t² of the best one bounds the difference of the covariances (eigenvalues of the ratio); margin for every class that does not approximate the truth, uniform over the finitely many graphs and targets; without latents the class is closed (regression coefficients are continuous); one variable with changed variance as a counterexample for the weights of the code |
| C114 What the tests check on random graphs holds for all graphs | proved | `allDags`, `chainComponent`, `degrees`, `moralGraph`, `labelEdges`, `pdagToCpdag`, `dagToIcpdag`, `imec`, `removeEdges`, `addEdges`, `maximallyOrient`, `sortBy`, `splitData`, `LModel.covariances` | corollaries of C03–C35, counting of edges, rounding of halves modulo 4 |
| C115 Equivalence classes are classes of graphs with the same d-separations | proved | `mec`, `imec`, `dagToCpdag`, `allDags` | active paths are reachability with arrowhead marks; invariant under reversal of a covered edge; non-adjacent nodes are separated by the parents of one of them; a root for each target makes every parent of a target part of a v-structure |
| C116 d-separated variables have partial correlation zero in the covariances of a model | proved | `mkModel`, `LModel.covariances`, `moralGraph` | induction over the nodes in the order of the graph (is the last node one of the variables, in the conditioning set, or neither); variables and latents together are structural equations without latents; the inverse covariance is a product of sparse matrices |
| C117 For almost all weights the covariances determine the class of graphs | proved | `mkModel`, `LModel.covariances`, `imec`, `mec`, `sampleParameters`, `equivalenceClass` | partial covariances and regression coefficients are quotients of polynomials in the weights, and zeros of a polynomial have measure zero (proved by induction over the variables with Fubini); weights for which the polynomial does not vanish are found by induction over the nodes; a graph that entails the covariances has no other separations, so with no more edges it is Markov equivalent; a reversed edge at a target would need a coefficient that does not change |
| C118 The probability of every random graph: all DAGs occur, but not equally often | proved | `dagAvgDeg`, `upperGraph`, `randomGraphModel` | the draws that give a graph, for a given permutation, form a box of the product measure; its measure is a product of the probabilities of the pairs, and averaging over the permutations counts the compatible orderings |
| C119 With one environment and no latents a fit is the least squares fit and the unique maximum of the likelihood | proved | `fitDag`, `initialModel`, `codeSolvers`, `LModel.score`, `equivalenceClass` | the convex programme with one environment is least squares; the likelihood of a model is a sum over the variables of log w + r/w, which has a unique minimum; ties of the target search go to the full set |
| C120 With one environment and no latents equivalence_class is consistent | proved | `splitData`, `npCov`, `equivalenceClass` | strong law of large numbers for the entries; the rows of a fold have the law of equally many first rows, so convergence in probability; the bound of C113 made uniform in the sample size for balanced weights, which one environment always has; continuity of the regression coefficients |
| C121 With three environments the selection of the targets is not consistent | proved | `fitDag`, `LModel.score`, `splitData`, `npCov`, `equivalenceClass` | the fit of the graph without edges in closed form; removing targets changes the score by a sum of gains; with the weights 1/(27n²), 1/(9n), 1/3 an error of order n^(-1/2) of the variance in the last environment outweighs the others; the central limit theorem gives such an error, in the right direction, a positive probability |
| C122 With several environments and no latents the weights and the last environment are consistent | proved | `fitDag`, `solveForBCvx`, `initialModel`, `solveForRest`, `LModel.score`, `splitData`, `equivalenceClass` | minimisers of positively weighted sums of residual variances are close to the true weights, uniformly in the weights of the sum; the excess of the variances, x - 1 - log x of their quotients summed with the weights of the score, at most triples per iteration up to a small constant, so it stays small; in the fold for the graphs a class that cannot approximate the last covariance has an excess that does not vanish |
| C123 With one environment, latents and nearly optimal fits equivalence_class is consistent | proved | `equivalenceClass`, `splitData`, `npCov`, any fits | the margin of C113 holds for all sample sizes if there is one environment; the folds are close to the truth with probability tending to one |
| C124 Variables that do not change are declared targets, however large the samples are | proved | `fitDag`, `LModel.score`, `splitData`, `npCov`, `equivalenceClass` | the closed form of C121; separate variances of a variable look better if its training variance in the last environment is too large by several n^(-1/2) and its test variance by even more; the errors of all sample variances are independent, so by the central limit theorem this has a probability bounded below |
| C125 Superfluous edges do not disappear, however large the samples are | proved | `fitDag`, `LModel.score`, `splitData`, `npCov`, `equivalenceClass` | the score of a fitted graph is a sum of terms, one for each variable, so the two graphs differ in the term of j only; the larger graph is better there if the sample covariance of the two residuals is at least n^(-1/2) in both folds with the same sign and does not exceed on the training fold what it is on the test fold; by the central limit theorem for a sample covariance and the independence of the folds this has a probability bounded below |
| C126 With one environment the order of the candidates decides within a Markov equivalence class | proved | `fitDag`, `LModel.score`, `pruneGraphs`, `bestScoring`, `allDags`, `equivalenceClass`, `equivalenceClassGes` | both fits are the unique maximum of the likelihood over the covariances their graph can entail (C119), these sets are equal for Markov equivalent graphs (C101), and among equal scores the first one is taken (C95) |
| C127 For data with a density almost all runs of equivalence_class return | proved | `equivalenceClass`, `equivalenceClassGes`, `pruneGraphs`, `codeFit`, `splitData`, `npCov` | determinants and entries of sample covariances are polynomials in the data that do not vanish for some data, so their zeros have measure zero; then C72 applies, and a regression with zero weights only would need zero covariances |
| C128 Fair draws give fair folds, targets and subgraphs | proved | `splitData`, `npCov`, `interventionTargets`, `choiceTargets`, `removeEdges`, `directedEdges` | covariances are averages over pairs of observations and every pair of places is equally likely to hold any pair of observations; a set is drawn by the orders of its elements, of which there are n factorial |
| C129 A simulation study recovers the class of its graph | proved | `sampleParameters`, `genOmegas`, `LModel.sample`, `equivalenceClass`, `mec` | the sampled covariances are those of the drawn model, so the observations are independent copies with these covariances; C122 gives a candidate that entails the covariance of the last environment, for almost all weights the graphs with at most as many edges that do are Markov equivalent to A, and by C59 so are the returned ones |
| C130 Printing a model | proved | `LModel.str`, `strengthLines`, `fitDagVerbose` (the texts of numbers and arrays are parameters) | the loop over the strengths appends one line each; the rest from C74, C75, C46, C47 and C59; the initial variances are positive |
| C131 The selected number of latents does not depend on the sorting algorithm | proved | `sortedM`, `tupleLt` | without NaN the comparison is a strict total order on the list, and a sorted permutation for such an order is unique |
| C132 The probability of a wrong class decreases exponentially, and almost surely wrong classes stop appearing | proved | `equivalenceClass`, `splitData`, `npCov`, `LModel.sample`, `sampleParameters` | Chernoff bounds for the averages of products, with the derivative of the moment generating function at zero; Fernique's theorem for normal observations; the deterministic neighbourhood of C122; Borel-Cantelli |
| C133 What sample_parameters prints, and whose variances they are | proved | `sampleParametersVerbose`, `spectralNorm` (a matrix norm computed from eigenvalues of the product of the matrix with its transpose) | the spectral theorem in the coordinates of the eigenvectors; a separate specification of the largest stretch, which is unique |
| C134 With one environment the returned parameters are within K/sqrt(n) of the truth | proved | `equivalenceClass`, `fitMain`, `codeFit`, `splitData`, `npCov` | a resolvent identity for the normal equations, closure of Lipschitz functions under sums and products, the central limit theorem for sample covariances, the exponential bounds of C132 and Borel-Cantelli |
| C135 What a run prints | proved | `fitMainV`, `pruneGraphsV`, `pruneIV`, `latentLoopV`: the functions of `Model/Main.lean` with the list of printed lines (`Line`: the numbers, graphs and sets in a line without the words around them) | a simulation (forgetting the lines gives the functions without printing); an invariant of the pruning loop that relates line k to models k and k-1; a reader of the output as specification of the selection of the number of latents |
| C136 What score_dag and its gradient descents print | proved | `gradientDescentV`, `solveForBGradV`, `solveForGammaV`, `solveForRestV`, `altBodyV`, `fitDagV`, `scoreDagV`: the functions of `Model/Score.lean` and `Model/GradDescent.lean` with the list of printed lines (the numbers and arrays in a line without the words around them) | simulations (forgetting the lines gives the functions without printing); invariants of the two loops over the lines printed so far, read by functions that see only the lines |
| C137 How many graphs mec and all_dags return | proved | `mec`, `allDags`, `dagToCpdag`; the specification `Spec/ClassSize.lean` defines the pairs of undirected edges, complete skeletons, trees with a root and edges without a common node | a member is determined by any topological order and by the directions of the undirected edges (two injections); toggling an undirected edge that meets no other is the reversal of a covered edge; trees are re-rooted by reversing the edge from the root |
| C138 The warnings of the solver for B | proved | `solveForBGradV`, `gradStepV`, `altBodyV`, `fitDagV`: `_solve_for_B_grad` and `score_dag` with the printed lines; overflow and halving are parameters (`NumLib`) | invariant of the loop: the lines so far are determined by the list of numbers of the failed steps, and the current point is that of a descent with a fixed rate, defined separately; simulation of a run with any verbosity by one with verbosity zero |
| C139 The arguments of _fit for GES, and more candidates | proved | `fitMainWith`, `initialGraphsWith`, `fitGesWith`, `gesLoop`, `pyGet`: `_fit` and `_fit_ges` with all arguments; GES itself is an arbitrary function of the phases, the penalty and the data that may raise | induction over the penalties with C23 for each CPDAG; the loop over the candidates visits the given ones first, with the same calls, and C58 says what is selected |
| C140 Which further targets make the class smaller | proved | `imec`, `dagToIcpdag`, `dagToCpdag` | both orientations of an undirected edge occur in the class (C21), and they differ in the parents of its ends; distinct targets and the other end of the last undirected edge for the bound, swapping two adjacent variables of the order for the complete DAG |
| C141 Graphs given by floating-point matrices | proved | doubles with rounding to nearest, gradual underflow, infinities and NaN; sums in any order; the graph functions on matrices of doubles (Model/FloatGraph.lean) | the sum of non-negative doubles is zero only if all are, because doubles are multiples of the smallest one; Kahn's loop depends on the zero entries only, so it is simulated by the integer model; the invariant of Kahn's algorithm gives what is left of a cyclic graph |
| C142 What the graph functions print with debug | proved | `pdagToDagD`, `maximallyOrientD`, `dagToIcpdagD`, `isConsistentExtensionD`, `dagAvgDegD` (Model/Debug.lean): the functions with the values in the printed lines, also those before an exception; not the words around them | induction over the loops; the graph of an iteration is the input with the orientations printed so far; candidates are sinks of what is left; C16 and C21 for what all extensions share |
| C143 Errors in the computed test scores | proved | `fitMainR` (Model/Rounded.lean): `fitMain` with an arbitrary function for the computed scores; errors of the fits are part of `FitEnv.fit`, those of the variances part of `FitEnv.argsort` | the computed and the exact minimum differ by at most eps and are attained by the same entry if there is a gap; induction over the numbers of latents |
| C144 PDAGs with floating-point entries | proved | `Model/FloatPdag.lean`: the functions on matrices of doubles, with rounding in the sums of the assertions of `all_dags` | every step is the one of the integer model on the graph of the non-zero entries, with the weights as a mask; sums of numbers between two doubles stay between the multiples of them in every order |
| C145 Paths, cliques and edge changes with floating-point entries | proved | `Model/FloatMore.lean`: the functions on matrices of doubles, with the rounded sum in `skeleton` and `is_complete` | the comparisons with zero are those of the graph of the non-zero entries; the rounded sum of two doubles is zero only if they are opposite (C141) |
| C146 is_dag and topological_ordering for weights of any sign | proved | the same definitions as C01, C17, C24 (`Model/Graph.lean`, `Model/Pdag.lean`, `Model/Enum.lean`) and C141 (`Model/FloatGraph.lean`), without hypotheses on the entries | an invariant of the loop that counts the occurrences of each node on the stack and in the list, for any start; for a DAG everything is freed by well-founded induction; the loop depends on the pattern of zeros only |
| C147 Zero noise variances in the metrics and the text of a model | proved | `Model/MetricsZero.lean`: floats with infinities and NaN, the dense products, an SVD that raises for matrices that are not finite; whether products skip zero factors is a parameter | a product is finite iff all its factors are (or are skipped), and on finite floats it is the real product |
| C148 Generators for all sizes, seeds and intervals | proved | `Model/GenArgs.lean`: integers as arguments, numpy's checks in the order of the calls, draws of the unit interval scaled to the intervals | case analysis of the checks; reduction to C62 to C65 |
| C149 dag_to_cpdag and the classes for DAGs whose weights have any sign | proved | `Model/Pdag.lean`, `Model/Enum.lean` and `Model/FloatGraph.lean` as they are, without the assumption that weights are not negative | the search for the next edge takes the touched node that occurs first latest; if it has no unlabelled parent, IndexError; otherwise labels grow along edges, and by last occurrences within a column, which is what label_edges needs to be right |
| C150 equivalence_class with candidate DAGs whose weights have any sign | proved | `Model/Main.lean` (`pruneGraph`, `fitMain`, `equivalenceClass`) on integer matrices of any sign | `Props/SignedCandidates.lean`: the invariants of C55-C59 without assumptions on signs, with the characterisation of `dag_to_icpdag` of C146 and C149; a fitting procedure for which the error and the wrong graph occur |
| C151 pdag_to_cpdag, pdag_to_icpdag, all_dags and to_factorization for directed edges with weights of any sign | proved | `Model/FloatPdag.lean` (`fpdagToDag`, `fpdagToCpdag`, `fpdagToIcpdag`, `fallDags`), `Model/FloatMore.lean` (`ftoFactorization`), `Model/FloatGraph.lean` | `Props/SignedPdag.lean`: from the characterisations C144, C146 and C149; orientations of the undirected edges against the combinations of flags; exactness of sums of integers below 2^53 in any order |
| C152 is_dag, Model and sample_parameters for adjacency matrices of any sign | proved | `mkModel`, `LModel.covariances` (`Model/LModel.lean`), `sampleParameters` (`Model/Gen.lean`), `isDag`, `fisDag` | `Props/SignedModel.lean`: from the exact criterion of C146; sums of doubles that are not positive are not positive; extreme draws |
| C153 Graphs with cycles never get an equivalence class, whatever their weights | proved | `orderEdges`, `labelEdges`, `dagToCpdag`, `dagToIcpdag`, `mec`, `imec`, their versions for doubles, `equivalenceClass`, `equivalenceClassGes` | `Props/CyclicClass.lean`: the loop of `order_edges` keeps the edges and gives them positive labels, so the check of `label_edges` sees a graph with the same cycles and without negative weights |
| C154 Adjacency matrices of 64-bit integers: sums that wrap around | proved | `wtopologicalOrdering`, `wisDag`, `worderEdges`, `wlabelEdges`, `wdagToCpdag` (`Model/Int64.lean`) | `Props/Int64.lean`: the exact criterion of the peeling loop (C146) with sums modulo 2^64; bounds on sums of entries and of labels |
| C155 What dag_to_icpdag, imec and equivalence_class return represents members of the class only | proved | `dagToIcpdag`, `icpdagLoop`, `maximallyOrient` (`Model/Meek.lean`), `fdagToIcpdag`, `imec`, `equivalenceClass`, `equivalenceClassGes` | `Props/SoundClass.lean`: the loop only removes entries and treats every edge at a target; the final assertion of `dag_to_icpdag` decides consistent extension; C153 |
| C156 dag_to_cpdag and mec err in one direction only, and the final assertion of dag_to_icpdag never fails | proved | `dagToCpdag`, `labelEdges`, `labelPass` (`Model/Pdag.lean`), `dagToIcpdag`, `mec`, `fdagToCpdag`, `fdagToIcpdag` | `Props/SoundCpdag.lean`: invariant of the passes of `label_edges` (the edges into a node are labelled together, and those of a v-structure as compelled) with the order of `order_edges` (C149); `maximally_orient` keeps all consistent extensions (C20) |
| C157 A second step repairs what negative weights break, and the PDAG functions are sound for weights of any sign | proved | `dagToCpdag`, `pdagToCpdag`, `dagToIcpdag`, `pdagToIcpdag`, `fpdagToCpdag`, `fpdagToIcpdag`, `equivalenceClass`, `equivalenceClassGes` | `Props/Repair.lean`: the results have entries 0 and 1 and the DAG as a consistent extension (C155, C156), so C19 and C21 apply to them |
| C158 More targets never enlarge the class, and enough of them make the result right, for weights of any sign | proved | `dagToCpdag`, `dagToIcpdag`, `mec`, `imec`, `equivalenceClass`, `equivalenceClassGes` | `Props/MoreTargets.lean`: from the exact description of the consistent extensions of the result (C156) and C155 |
| C159 Nodes given as any integers: negative nodes count from the end, except where the code compares them with others | proved | `zneighbors`, `zadj`, `zpa`, `zch`, `zna`, `zisClique`, `zinducedSubgraph`, `zchainComponent`, `zdagToIcpdag`, `zpdagToIcpdag`, `zrule1` to `zrule4`, `zchainGraphIMEC` | `Props/IntNodes.lean`, `Props/IntRules.lean`: by reduction to the functions on `Fin p` through `nodeOf`, and for `chain_component` by an invariant of the search over integers |
| C160 Paths and separation for nodes given as any integers | proved | `zsemiDirectedPaths`, `zseparates` | `Props/IntPaths.lean`: the search over integers is the one of C07 in a graph with two more nodes that stand for the given integers |
| C161 score_dag ignores targets that are negative or outside the graph, and the cache compares the sets as given | proved | `zfitCode`, `zscoreDag`, `zcacheFind` | `Props/IntTargets.lean`: equality with the model for sets of nodes, C46, and induction over the calls |

Every property can be expressed. The notes in MANIFEST.json state the hypotheses that restrict a theorem compared with its title.

## 7. Findings

Behaviour of the code that differs from its documentation or is likely to surprise:

* With two or more environments `Model.score` divides the running sum by the total in every iteration, so environment `k` of `e` gets the weight
  `n_k / N^(e-k)` (C37), and the gradients are those of the documented score, not of the loss that the
  line search compares (C76). The descent can therefore stop at once although the loss could be decreased (C80_stuck).
* The score returned by `score_dag` is that of the weights before the last iteration (C52). The result of a call with `init_model` is stored and
  returned by later calls without it (C43).
* The solver `grad` ignores sample sizes (C78); the solver `adaptive` can run forever (C79).
* Pruning of graphs runs forever once a graph with edges is fitted with zero weights only (C56). NaN scores are preferred (C54).
* `random_state` is ignored by the public functions (C60). `chain_graph_model` ignores `random_state` and `obs`, and `random_graph_model` uses
  `random_state` for the graph only (C73).
* Generated variances leave the documented interval (C63); `intervention_targets` never draws the upper end of a tuple (C64).
* `split_data` can drop observations (C33). `is_stable_set` cannot be called (C68). Negative weights break `is_dag` (C69).
* With two variables, the default `nums_latent` raises ZeroDivisionError (C81); one node raises in `_dag_avg_deg` (C65).
* `psi_max <= 1` is unusable (C49).
* The phases of `_fit` score different objects: models rebuilt from the cache and models with a stale `I - B` (C90).
* Exchanging environments changes scores and can change the selected model (C94).
* Ties favour the full set of targets and the first candidate. With exact data and exact fits all variables are declared targets (C95).
* The weakest edge and the order in which targets are removed depend on the units of the variables, and any outcome is possible (C96).
* GES gets pooled data that are not centred per environment (C97). With an empty test fold nothing is selected, without an error (C98).
* `split_data` rejects `[0.7, 0.2, 0.1]` because of rounding, but accepts `[0.1, 0.2, 0.7]` (C99).
* With exact covariances, no latents and the convex solver the code finds a fitting graph, but declares every variable a target, whatever the true
  targets are (C104). With latents the starting point of `score_dag` is biased even then (C103).
* Parameters of `init_model` that are stored as integers may be returned unchanged, because their derivatives are truncated (C105).
* With two or more environments `score_dag` can return parameters that are worse than those of `init_model`, for the computed as well as for the
  documented score (C106).
* `threshold_graph` is a fraction of the largest weight, not a bound on the weights as documented (C107).
* The solvers `grad` and `adaptive` start from draws of the global generator of numpy, so calls with the same `random_state` can have different results, or none (C108).
* With dense latents (the default of the generators) no partial correlation vanishes for almost all weights, so nothing is learned from partial
  correlations; targets whose variances change in the same proportion as those of their neighbours can be indistinguishable from no targets (C117).
* Random graphs with equally many edges are not equally likely (C118).
* With one environment and no latents all variables are declared targets and a single DAG is returned, whatever the data (C119).
* With growing samples all environments but the last one disappear from the score (C109).
* Therefore the selection of targets is not consistent: with three environments of equal size a target is missed with a probability that does not tend
  to zero with the sample size (C121; shown for candidates without edges, no latents, `cvx`, no pruning; the code needs at least two variables, C110).
* What survives with growing samples is the last environment: the returned graph can describe its covariance, and the weights are right whenever the graph is (C122;
  about the other environments nothing is shown for the graph, and C121 shows the failure for the targets).
* With one environment, latents and nearly optimal fits, `equivalence_class` is consistent: it returns something that cannot approximate the true covariance with a
  probability that tends to zero (C123).
* Variables whose variance never changes are declared targets with a probability that does not tend to zero (C124; candidates without edges, no latents, `cvx`, no pruning).
* Superfluous edges do not disappear with growing samples either, not even if the graph without them is a candidate (C125).
* With one environment the first candidate of a Markov equivalence class is returned, whatever the data (C126).
* `sample_parameters(verbose=True)` prints the noise variances of the first variable over the environments where those of the first environment seem meant (C133).
* All positive values of `verbose` print the same, although higher values are documented to print more; the printed number of edges is a sum of entries, wrong for weighted candidates (C135).
* The iterations that the gradient descents number in their output include the steps that left the bounds, whose lines show no number; a graph found in the cache of a `Score` object prints nothing, whatever the verbosity (C136).
* The second list of lines of `maximally_orient` says `Orjented`; both cases are correct otherwise (C142).
* `_solve_for_B_grad` prints its warnings even with `verbose=0` (C138).
* `all_dags` tries the orientations of all `u` undirected edges, `2^u` of them, while at most `p!` can be results (C137): for a complete graph over 7 variables these are 2097152 and 5040, and for a tree over `p` variables `2^(p-1)` and `p`.
* `equivalence_class` does not return for data with one observed variable; candidates of another size raise `IndexError` (C110).
* With as many latents as variables in two environments, or one fewer in one environment, all graphs fit equally well and the score says nothing about them (C101).
* With `psi_fixed`, interventions on all variables whose variances change differently identify the graph, for any number of latents; with latents whose variances change nothing is identified once there are enough of them (C112, C101).
* For given sample sizes small errors of covariances and fits do not lead to a wrong class, but how small they have to be depends on the sample sizes (C113).
* `test_split_data_3` passes because of its sample size: with 97 or 101 instead of 99 observations one is dropped and the test would fail. Its
  body also contains the definitions of `test_directed_edges`, `test_supergraph_1/2`, `test_remove_edges` and `test_add_edges`, so these never
  run; what they assert holds (C114, C30).
* On exact covariances without latents `prune_edges` never removes a superfluous edge from a graph that fits: weights that are exactly zero count as infinitely strong (C104).
* For a DAG with a node whose weights add up to zero `topological_ordering` lists the node twice, and `dag_to_cpdag`, `mec` and `imec` may raise `IndexError` although `is_dag` accepts it (C146).
* Whether they raise it depends on whether an edge goes backward in the list, counting first occurrences. If none does, `dag_to_cpdag` may return a wrong CPDAG without an error, and `mec` a list that omits members of the class: `C149_wrong_graph` gives a DAG on five nodes with one weight −1 for which two reversible edges are directed (C149).
* `equivalence_class` documents candidates as weighted matrices (`A[i, j] != 0` is an edge), but it passes the selected one to `dag_to_icpdag`. For the candidate `0 → 2 ← 1` with weights 1 and −1 it fits all models and then raises an `IndexError`; for a candidate on five nodes it returns a wrong graph (C150: `C150_collider`, `C150_wrong_graph`, and fits for which this happens). Pruning stops as soon as the weights add up to zero or less (`C150_not_pruned`).
* With negative weights on directed edges `pdag_to_cpdag` may raise an `IndexError` for a PDAG with a consistent extension (`0 → 1`, `0 → 2` with weight −1 and `1 - 2`; `C151_index_error`), and `all_dags` returns cyclic graphs for a PDAG with a directed cycle of weights −1, which has no consistent extension (`C151_accepts_cycles`).
* `is_dag`, and with it `Model` and `sample_parameters`, accepts every matrix without positive entries, cyclic or not (C152); `sample_parameters` multiplies the drawn weights by the entries of `A`, so that they leave `[B_lo, B_hi]` if the entries are not 0 and 1.
* Cyclic graphs that `is_dag` accepts are caught later: `dag_to_cpdag`, `dag_to_icpdag`, `mec` and `imec` never return for them, though the error may be an `IndexError` from `sort` instead of the documented `ValueError` (C153).
* `is_dag` accepts a cycle of two nodes with positive weights whose sum exceeds 2^63 - 1 (C154).
* Where `dag_to_icpdag` returns a wrong graph (negative weights) it represents too few DAGs, never a DAG outside the class (C155).
* The same holds for `dag_to_cpdag` and `mec`; the final assertion of `dag_to_icpdag` never fails (C156).
* Such results are repaired by applying `pdag_to_cpdag` or `pdag_to_icpdag` to them, also that of `equivalence_class` (C157).
* They are right if every edge has an end among the targets (C158).
* Negative nodes count from the end, but `is_clique` says False for a set such as {-1, p - 1} that names a node twice, and `chain_component(-1, G)` contains -1 (C159).
* `semi_directed_paths` finds no path to a negative node, and `separates` says that such nodes are separated from everything (C160).
* `score_dag` ignores negative targets, which elsewhere count from the end, and those outside the graph (C161).
* `is_dag` accepts cyclic graphs with NaN on or behind a cycle (C141), and `is_complete` and `is_clique` miss edges with opposite weights (C145).
* `all_dags` on weighted matrices returns the consistent extensions only if the undirected entries are 1 (C144).
* A graph is a candidate as often as there are penalties of GES that lead to it (C139).
* A model with a zero noise variance of a variable that has latent effects is accepted by the constructor but cannot be printed (C147).
* `random_graph_model` refuses seeds of more than 32 bits, which the other generators accept, and with `sparse_latents` and one or two variables there are no latent effects (C148).
